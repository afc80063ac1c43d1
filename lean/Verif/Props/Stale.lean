import Verif.Proofs.Stale
import Verif.Props.FullSync
import Verif.Props.PartialSync
/-!
C74: how old a reply can be.  C24 and C39 are false because a reply may come from the segment store; here the age of what
comes from the store is bounded.
-/
namespace PSync
open Spec

/-- C74, full sync: every Data a node sends on any event, also one found in the segment store, is the application nack or
a segment of a reply that the node made on an event of its own past (`op0`, from `s0` to `s1`), at most
max(freshness, 10 ms) ago.  Its names `p/q` satisfy `q ≤` the number of `p` at that time; if the reply was made on an
Interest or by a timer, its names were exactly current. -/
theorem c74_full (cfg : Cfg) (hl : cfg.contentCodec.Lossless) (s s' : Full) (hs : Full.Reach cfg s) (op : Full.Op)
    (h : Full.step cfg s op = .ok s') :
    ∃ ext, s'.log = s.log ++ ext ∧ ∀ d, Out.data d ∈ ext → (d.contentType = .nack ∧ d.content = []) ∨
      ∃ s0 op0 s1 later, Full.Reach cfg s0 ∧ Full.step cfg s0 op0 = .ok s1 ∧ Full.run cfg s1 later = .ok s' ∧
        s0.now ≤ s.now ∧ s.now ≤ s0.now + max cfg.freshness 10 + cfg.lag ∧
        ∃ name buf fr segs content hist, IsSegmentation name buf fr segs ∧ d ∈ segs ∧
          cfg.contentCodec.decompress buf = some (encodeNames content) ∧ content ≠ [] ∧
          s0.base.hist <+: hist ∧ hist <+: s1.base.hist ∧
          (∀ n ∈ content, ∃ p q, n = p.appendNumber q ∧ q ≤ ((replay hist).find p).getD 0) ∧
          ((∀ c, op0 ≠ .call c) → (∀ b acts, op0 ≠ .complete b acts) → ∀ n ∈ content, IsLive s0.base.getSeqNo n) := by
  obtain ⟨ext, h1, h2⟩ := Full.step_fresh hs h
  refine ⟨ext, h1, fun d hd => ?_⟩
  rcases h2 d hd with ⟨b, hn⟩ | ⟨s0, op0, s1, ⟨g1, g2, ⟨b, m, name, v, buf, fr, ⟨hb1, hb2⟩, ⟨content, hne, hc, hbuf⟩, hm⟩, later, g4⟩, g5, g6⟩
  · left
    unfold nackData at hn
    simp only [Res.bind_eq_ok, Res.ok.injEq] at hn
    obtain ⟨_, _, rfl⟩ := hn
    exact ⟨rfl, rfl⟩
  · right
    obtain ⟨y, e1, e2⟩ := hl (encodeNames content)
    rw [hbuf, Option.some.injEq] at e1
    subst e1
    have hinv0 := Full.reach_inv g1
    have hr0 := Full.reach_replayed g1
    have hr := hb1.replayed hinv0 hr0
    obtain ⟨x1, he1⟩ := hb1.hist
    obtain ⟨x2, he2⟩ := hb2.hist
    refine ⟨s0, op0, s1, later, g1, g2, g4, g5, g6, name.appendVersion v, buf, fr, _, content, b.hist,
      segmentData_spec _ _ _, hm, e2, hne, ⟨x1, he1.symm⟩, ⟨x2, he2.symm⟩, ?_, ?_⟩
    · intro n hn
      have hk : Full.Known b n := by
        have := hc n hn
        unfold Full.opNames at this
        split at this
        · exact Full.known_of this
        · exact Full.known_of this
        · exact Full.known_of_live this
      obtain ⟨p, q, cur, hp, hq, rfl⟩ := hk
      refine ⟨p, q, rfl, ?_⟩
      have := hr.find p
      rw [show b.prefixes.find p = some cur from hp] at this
      rw [← this]
      exact hq
    · intro k1 k2 n hn
      have hlive : Full.liveP b m n := by
        have := hc n hn
        unfold Full.opNames at this
        split at this
        · exact absurd rfl (k1 _)
        · exact absurd rfl (k2 _ _)
        · exact this
      have hbase : s1.base.hist = s0.base.hist := by rw [Full.step_same_base hinv0 g2 k1 k2]
      have hx : b.hist = s0.base.hist := by
        have hlen := congrArg List.length hbase
        rw [he2, he1] at hlen
        simp only [List.length_append] at hlen
        have : x1 = [] := List.length_eq_zero_iff.mp (by omega)
        rw [he1, this, List.append_nil]
      obtain ⟨p, x, hp, hx0, rfl⟩ := hlive
      refine ⟨p, x, ?_, hx0, rfl⟩
      have e3 := hr.find p
      have e4 := hr0.find p
      rw [hx, ← e4, show b.prefixes.find p = some x from hp] at e3
      simp only [Option.getD_some] at e3
      unfold Base.getSeqNo
      cases hf : s0.base.prefixes.find p with
      | none => rw [hf] at e3; simp only [Option.getD_none] at e3; omega
      | some y => rw [hf] at e3; simp only [Option.getD_some] at e3; rw [e3]

/-- C74, full sync: nothing old is left in the segment store.  If no reply was made since the node was in `r` and more
than max(freshness, 10 ms) and the lag of the timers have passed, the store is empty, so that the next Interest is answered from the table. -/
theorem c74_full_empties (cfg : Cfg) (r s : Full) (hr : Full.Reach cfg r) (ops : List Full.Op)
    (h : Full.run cfg r ops = .ok s) (hno : s.replies.length = r.replies.length)
    (ht : r.now + max cfg.freshness 10 + cfg.lag < s.now) : s.pub.store = [] ∧ ∀ n, s.pub.replyFromStore n = none := by
  have hs : Full.Reach cfg s := by
    obtain ⟨i, pre, g1, g2⟩ := hr
    refine ⟨i, pre ++ ops, g1, ?_⟩
    unfold Full.run at g2 h ⊢
    rw [foldRes_append, g2, Res.ok_bind]
    exact h
  have hm := (Full.run_micro (Full.reach_inv hr) h).timers_of.2 hno
  have he : s.pub.store = [] := by
    rw [List.eq_nil_iff_forall_not_mem]
    intro d hd
    obtain ⟨e, he, _⟩ := Full.reach_timed_store hs d hd
    have h1 := ((Full.reach_clocked hs).timers e he).1
    have h2 := ((Full.reach_clocked hr).timers e (hm e he)).2
    omega
  exact ⟨he, fun n => by simp [SegPub.replyFromStore, storeFind, he]⟩

/-- C74, partial sync: every Data a producer sends on any event, also one found in the segment store, is a nack or a
segment of a hello reply or sync reply made in a state `r` of its past, at most max(freshness, helloFreshness) ago, from
the table it had then: a hello reply lists that table, a sync reply contains names that were current then and
asked for. -/
theorem c74_partial_producer (cfg : Cfg) (ops : List Part.Op) (s s' : Part) (hs : Part.run cfg (Part.init cfg) ops = .ok s)
    (op : Part.Op) (h : Part.step cfg s op = .ok s') :
    ∃ ext, s'.log = s.log ++ ext ∧ ∀ d, Out.data d ∈ ext → (d.contentType = .nack ∧ d.content = []) ∨
    ∃ pre post r, ops ++ [op] = pre ++ post ∧ Part.run cfg (Part.init cfg) pre = .ok r ∧ Part.run cfg r post = .ok s' ∧
    s'.now ≤ r.now + max cfg.freshness cfg.helloFreshness + cfg.lag ∧
    ∃ c name content v fr segs, r.base.iblt.toComponent cfg.ibltCodec = .ok c ∧
      IsSegmentation (name.appendVersion v) (encodeNames content) fr segs ∧ d ∈ segs ∧
      ((name = cfg.syncPrefix ++ [HELLO, c] ∧
          ∀ n, n ∈ content ↔ ∃ p x, r.base.getSeqNo p = some x ∧ n = Name.appendNumber p x) ∨
       (∃ key bf iblt, SyncFields cfg key bf iblt ∧ name = key ++ [c] ∧
          ∀ n ∈ content, ∃ p x, r.base.getSeqNo p = some x ∧ n = Name.appendNumber p x ∧ bf.contains p = .ok true)) := by
  obtain ⟨ext, h1, h2⟩ := Part.step_fresh hs h
  refine ⟨ext, h1, fun d hd => ?_⟩
  rcases h2 d hd with ⟨b, key, _, _, _, hn⟩ | ⟨pre, post, r, ⟨h4, h5, h6, nm, v, buf, fr, h7, h8⟩, hlt⟩
  · left
    unfold nackData at hn
    simp only [Res.bind_eq_ok, Res.ok.injEq] at hn
    obtain ⟨c, _, rfl⟩ := hn
    exact ⟨rfl, rfl⟩
  · right
    refine ⟨pre, post, r, h4, h5, h6, hlt, ?_⟩
    have hinv : r.base.Inv := Part.reach_inv ⟨pre, h5⟩
    have hseg := segmentData_spec (nm.appendVersion v) buf fr
    cases h7 with
    | hello c hc => exact ⟨c, _, _, _, _, _, hc, hseg, h8, Or.inl ⟨rfl, helloContent_spec hinv⟩⟩
    | asked n key bf iblt diff content c _ hf _ _ _ hcol hc =>
      refine ⟨c, _, _, _, _, _, hc, hseg, h8, Or.inr ⟨key, bf, iblt, hf, rfl, fun n hn => ?_⟩⟩
      rcases (Part.collect_spec _ _ _ hcol n).mp hn with h | ⟨j, _, h8, h9⟩
      · simp at h
      · obtain ⟨_, p, x, hp, _, rfl⟩ := hinv.bm _ _ (BiMap.findLeft_some h8)
        exact ⟨p, x, hp, rfl, by rwa [Full.dropLast_appendNumber] at h9⟩
    | parked p x key bf iblt diff sub c _ hf hp _ _ hsub hc =>
      refine ⟨c, _, _, _, _, _, hc, hseg, h8, Or.inr ⟨key, bf, iblt, hf, rfl, fun n hn => ?_⟩⟩
      cases sub with
      | false => simp at hn
      | true =>
        simp only [if_true, List.mem_singleton] at hn
        exact ⟨p, x, hp, hn, hsub⟩

/-- C74, partial sync: nothing old is left in the segment store. -/
theorem c74_partial_producer_empties (cfg : Cfg) (pre ops : List Part.Op) (r s : Part) (hr : Part.run cfg (Part.init cfg) pre = .ok r)
    (h : Part.run cfg r ops = .ok s) (hno : s.replies.length = r.replies.length)
    (ht : r.now + max cfg.freshness cfg.helloFreshness + cfg.lag < s.now) : s.pub.store = [] ∧ ∀ n, s.pub.replyFromStore n = none := by
  have hs : Part.run cfg (Part.init cfg) (pre ++ ops) = .ok s := by
    unfold Part.run at hr h ⊢
    rw [foldRes_append, hr, Res.ok_bind]
    exact h
  have hm := (Part.run_micro (Part.reach_parked ⟨pre, hr⟩) h).timers_of.2 hno
  have he : s.pub.store = [] := by
    rw [List.eq_nil_iff_forall_not_mem]
    intro d hd
    obtain ⟨e, he, _⟩ := (Part.run_aged hs).aged d hd
    have h1 := ((Part.run_aged hs).clocked.timers e he).1
    have h2 := ((Part.run_aged hr).clocked.timers e (hm e he)).2
    omega
  exact ⟨he, fun n => by simp [SegPub.replyFromStore, storeFind, he]⟩

/-! ### Non-vacuity -/

/-- The names in the Data a node sent, the time, the store size and the number of replies made. -/
def servedOf (ops : List Full.Op) : Option (List (List Name) × Nat × Nat × Nat) :=
  ((Full.init sampleCfg).bind fun s => Full.run sampleCfg s ops).get?.map fun s =>
    ((dataOf s.log).map (fun d => namesIn sampleCfg d.content), s.now, s.pub.store.length, s.replies.length)

/-- /a/1 is sent at time 0.  At time 900, after /a/2 was published, the same Interest is still answered with /a/1. -/
def oldReplyScript : List Full.Op :=
  [.call (.addUserNode pA), .recvInterest emptyInterest, .call (.publishName pA (some 1)), .tick 601, .fireSync, .tick 900,
   .call (.publishName pA (some 2)), .recvInterest emptyInterest]

/-- After 1000 ms the stored reply is gone: the Interest is answered with /a/2. -/
def renewedScript : List Full.Op :=
  [.call (.addUserNode pA), .recvInterest emptyInterest, .call (.publishName pA (some 1)),
   .call (.publishName pA (some 2)), .tick 601, .fireSync, .tick 1000, .fireStore, .tick 1001, .recvInterest emptyInterest]

set_option maxRecDepth 4000 in
/-- Non-vacuity for `c74_full`: a reply 900 ms old is served, at the time the table has /a/2. -/
example : servedOf oldReplyScript = some ([[pA.appendNumber 1], [pA.appendNumber 1]], 900, 1, 1) := by decide +kernel

set_option maxRecDepth 4000 in
/-- Non-vacuity for `c74_full_empties`: before the last Interest nothing is stored, and it is answered anew. -/
example : servedOf renewedScript.dropLast = some ([[pA.appendNumber 1]], 1001, 0, 1) ∧
    servedOf renewedScript = some ([[pA.appendNumber 1], [pA.appendNumber 2]], 1001, 1, 2) := by decide +kernel

/-- The same for a producer of partial sync. -/
def servedPart (ops : List Part.Op) : Option (List (Option (List Name)) × Nat × Nat × Nat) :=
  (partRun ops).get?.map fun s =>
    ((dataOf s.log).map (fun d => (StateMsg.wireDecode d.content).get?.map (·.content)), s.now, s.pub.store.length, s.replies.length)

/-- Non-vacuity for `c74_partial_producer`: a sync reply 900 ms old is served, at the time the table has /a/2. -/
example : servedPart [.addUserNode pA, .publishName pA none, .recvInterest allInterest, .tick 900, .publishName pA none,
      .recvInterest allInterest] = some ([some [pA.appendNumber 1], some [pA.appendNumber 1]], 900, 1, 1) := by decide +kernel

/-- Non-vacuity for `c74_partial_producer_empties`: after the freshness the reply is made anew. -/
example : servedPart [.addUserNode pA, .publishName pA none, .recvInterest allInterest, .publishName pA none, .tick 1000,
      .fireStore, .tick 1001] = some ([some [pA.appendNumber 1]], 1001, 0, 1) ∧
    servedPart [.addUserNode pA, .publishName pA none, .recvInterest allInterest, .publishName pA none, .tick 1000,
      .fireStore, .tick 1001, .recvInterest allInterest] =
      some ([some [pA.appendNumber 1], some [pA.appendNumber 2]], 1001, 1, 2) := by
  constructor <;> decide +kernel

end PSync
