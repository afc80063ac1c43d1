import Verif.Proofs.Honest
import Verif.Props.ProducerBase
/-!
Properties C23–C28: what a FullProducer sends and learns.
-/
namespace PSync
open Spec

/-! ### C23 -/

/-- C23: every sync Interest a full-sync node ever sent has the form
`<sync-prefix>/<IBF>/<number>`, where for some moment of its history (an initial part `h` of the record)
the number is, modulo 2^64, the sum of the sequence numbers current at that moment plus the sequence
numbers the removed prefixes had when they were removed. -/
theorem c23_cumulative_count (cfg : Cfg) (s : Full) (hs : Full.Reach cfg s) (n : Name) (lt : Nat)
    (hn : Out.interest n lt ∈ s.log) :
    ∃ h c, h <+: s.base.hist ∧
      n = cfg.syncPrefix ++ [c, ⟨8, nniBytes ((sumSeq (replay h) + sumRemoved h) % 2 ^ 64)⟩] ∧
      lt = cfg.lifetime := by
  obtain ⟨b, ⟨hb1, hb2⟩, hsn, hlt⟩ := Full.reach_log hs hn
  have hinv := hb1.inv (Base.inv_new cfg)
  have hr := hb1.replayed (Base.inv_new cfg) (Base.replayed_new cfg)
  unfold Full.syncName at hsn
  simp only [Res.bind_eq_ok, Res.ok.injEq] at hsn
  obtain ⟨c, _, rfl⟩ := hsn
  refine ⟨b.hist, c, ?_, ?_, hlt⟩
  · obtain ⟨ext, he⟩ := hb2.hist
    exact ⟨ext, he.symm⟩
  · have h1 : b.numOwn = (sumSeq (replay b.hist) + sumRemoved b.hist) % 2 ^ 64 := by
      have := hinv.own
      rw [Nat.mod_eq_of_lt hinv.ownLt, hr.sum] at this
      exact this
    rw [h1, Name.appendNumber, List.append_assoc]
    rfl

/-- C23 at the moment of sending: the Interest sendSyncInterest sends carries the count of the current
state. -/
theorem c23_current (cfg : Cfg) (s s' : Full) (hs : Full.Reach cfg s)
    (h : Full.sendSyncInterest cfg s = .ok s') :
    s'.log = s.log ∨ ∃ c, s.base.iblt.toComponent cfg.ibltCodec = .ok c ∧
      s'.log = s.log ++ [.interest (cfg.syncPrefix ++
        [c, ⟨8, nniBytes ((sumSeq s.base.prefixes + sumRemoved s.base.hist) % 2 ^ 64)⟩]) cfg.lifetime] := by
  have hinv := Full.reach_inv hs
  rcases Full.sendSyncInterest_ok h with ⟨_, rfl⟩ | ⟨_, name, hn, ⟨_, _, rfl⟩ | ⟨_, rfl⟩⟩
  · exact Or.inl rfl
  · exact Or.inl rfl
  · right
    unfold Full.syncName at hn
    simp only [Res.bind_eq_ok, Res.ok.injEq] at hn
    obtain ⟨c, hc, rfl⟩ := hn
    refine ⟨c, hc, ?_⟩
    have h1 : s.base.numOwn = (sumSeq s.base.prefixes + sumRemoved s.base.hist) % 2 ^ 64 := by
      have := hinv.own
      rw [Nat.mod_eq_of_lt hinv.ownLt] at this
      exact this
    rw [h1, Name.appendNumber, List.append_assoc]
    rfl

/-- Without collisions the IBF in the Interest is the exact one of the same moment (see C21). -/
theorem c23_ibf_partial (cfg : Cfg) (he : 0 < cfg.expected) (s : Full) (hs : Full.Reach cfg s)
    (hc : CollisionFree s.base.hist) (n : Name) (lt : Nat) (hn : Out.interest n lt ∈ s.log) :
    ∃ h c t, h <+: s.base.hist ∧ IbfExact cfg.expected (replay h).find t ∧
      t.toComponent cfg.ibltCodec = .ok c ∧
      n = cfg.syncPrefix ++ [c, ⟨8, nniBytes ((sumSeq (replay h) + sumRemoved h) % 2 ^ 64)⟩] := by
  obtain ⟨b, ⟨hb1, hb2⟩, hsn, hlt⟩ := Full.reach_log hs hn
  have hinv := hb1.inv (Base.inv_new cfg)
  have hr := hb1.replayed (Base.inv_new cfg) (Base.replayed_new cfg)
  unfold Full.syncName at hsn
  simp only [Res.bind_eq_ok, Res.ok.injEq] at hsn
  obtain ⟨c, hcc, rfl⟩ := hsn
  obtain ⟨ext, hext⟩ := hb2.hist
  refine ⟨b.hist, c, b.iblt, ⟨ext, hext.symm⟩, ?_, hcc, ?_⟩
  · have hx := hb1.exact (Base.inv_new cfg) (Base.collisionFree_of_append (hext ▸ hc)) (Base.exact_new cfg)
    obtain ⟨L, h1, h2, h3⟩ := hx.ibfExact he hinv
    refine ⟨L, h1, fun n => (h2 n).trans ?_, h3⟩
    have key : ∀ p x, x ≠ 0 → (b.prefixes.find p = some x ↔ (replay b.hist).find p = some x) := by
      intro p x hx
      have := hr.find p
      cases h4 : b.prefixes.find p <;> cases h5 : (replay b.hist).find p <;>
        rw [h4, h5] at this <;> simp only [Option.getD_some, Option.getD_none] at this <;> simp <;> omega
    constructor
    · rintro ⟨p, x, hp, hx, rfl⟩; exact ⟨p, x, (key p x hx).mp hp, hx, rfl⟩
    · rintro ⟨p, x, hp, hx, rfl⟩; exact ⟨p, x, (key p x hx).mpr hp, hx, rfl⟩
  · have h1 : b.numOwn = (sumSeq (replay b.hist) + sumRemoved b.hist) % 2 ^ 64 := by
      have := hinv.own
      rw [Nat.mod_eq_of_lt hinv.ownLt, hr.sum] at this
      exact this
    rw [h1, Name.appendNumber, List.append_assoc]
    rfl

/-- Non-vacuity for C23: after publishing /a/5, removing it and publishing /b/2, the Interest carries 7
while the table sums to 2. -/
example : ((Res.bind (Full.init sampleCfg) fun s => Full.run sampleCfg s
      [.call (.addUserNode pA), .call (.publishName pA (some 5)), .call (.removeUserNode pA),
       .call (.addUserNode pB), .call (.publishName pB (some 2)), .tick 600, .fireSync]).get?.map
      (fun s => (sumSeq s.base.prefixes, sumRemoved s.base.hist,
        s.log.map (fun o => match o with | .interest n _ => n.getLast? | _ => none))))
    = some (2, 5, [some ⟨8, [0]⟩, some ⟨8, [7]⟩]) := by
  decide +kernel

/-! ### C24 -/

/-- The full claim C24 (for replies of one segment): a Data that answers a sync Interest names only current
publications. -/
def Spec.RepliesCurrent : Prop :=
  ∀ cfg : Cfg, cfg.WF → ∀ s s' : Full, Full.Reach cfg s → ∀ i : Interest, Full.step cfg s (.recvInterest i) = .ok s' →
    ∀ ext d, s'.log = s.log ++ ext → Out.data d ∈ ext → d.finalBlock = some ⟨50, [0]⟩ →
      ∀ n ∈ namesIn cfg d.content, IsLive s.base.getSeqNo n

/-- The Interest of a node that knows nothing, in the sample configuration. -/
def emptyInterest : Interest := ⟨nameOf [115] ++ [⟨8, List.replicate 72 0⟩, ⟨8, [0]⟩], 1000, 7⟩

set_option synthInstance.maxSize 1024 in
/-- C24 is false as stated: a reply from the segment store may be older than the state.  An Interest is
answered with /a/1; after /a/2 is published the same Interest is answered with /a/1 again. -/
theorem c24_false : ¬ Spec.RepliesCurrent := by
  intro h
  have key : ∃ s s' d, (Res.bind (Full.init sampleCfg) fun s => Full.run sampleCfg s
        [.call (.addUserNode pA), .recvInterest emptyInterest, .call (.publishName pA (some 1)),
         .call (.publishName pA (some 2))]) = .ok s ∧
      Full.step sampleCfg s (.recvInterest emptyInterest) = .ok s' ∧
      s'.log = s.log ++ [.data d] ∧ d.finalBlock = some ⟨50, [0]⟩ ∧
      namesIn sampleCfg d.content = [pA.appendNumber 1] ∧ s.base.prefixes = [(pA, 2)] := by
    have h1 : ((Res.bind (Full.init sampleCfg) fun s => Full.run sampleCfg s
        [.call (.addUserNode pA), .recvInterest emptyInterest, .call (.publishName pA (some 1)),
         .call (.publishName pA (some 2))]).get?.bind fun s =>
        (Full.step sampleCfg s (.recvInterest emptyInterest)).get?.map fun s' =>
        (decide (s'.log.take s.log.length = s.log), (s'.log.drop s.log.length).map (fun o =>
          match o with
          | .data d => (d.finalBlock, namesIn sampleCfg d.content)
          | _ => (none, [])), s.base.prefixes)) =
        some (true, [(some ⟨50, [0]⟩, [pA.appendNumber 1])], [(pA, 2)]) := by decide +kernel
    generalize (Res.bind (Full.init sampleCfg) fun s => Full.run sampleCfg s
        [.call (.addUserNode pA), .recvInterest emptyInterest, .call (.publishName pA (some 1)),
         .call (.publishName pA (some 2))]) = x at h1 ⊢
    cases x with
    | throw e => simp [Res.get?] at h1
    | ub u => simp [Res.get?] at h1
    | hang => simp [Res.get?] at h1
    | ok s =>
      simp only [Res.get?, Option.bind_some] at h1
      cases h2 : Full.step sampleCfg s (.recvInterest emptyInterest) with
      | throw e => simp [h2] at h1
      | ub u => simp [h2] at h1
      | hang => simp [h2] at h1
      | ok s' =>
        simp only [h2, Option.map_some, Option.some.injEq, Prod.mk.injEq, decide_eq_true_eq] at h1
        obtain ⟨h3, h4, h5⟩ := h1
        have h6 : s'.log = s.log ++ s'.log.drop s.log.length := by
          conv_lhs => rw [← List.take_append_drop s.log.length s'.log, h3]
        match hd : s'.log.drop s.log.length, h4 with
        | [.data d], h4 =>
          simp only [List.map_cons, List.map_nil, List.cons.injEq, and_true, Prod.mk.injEq] at h4
          exact ⟨s, s', d, rfl, h2, by rw [h6, hd], h4.1, h4.2, h5⟩
        | [.interest _ _], h4 => simp at h4
        | [.update _], h4 => simp at h4
        | [.hello _], h4 => simp at h4
        | [], h4 => simp at h4
        | _ :: _ :: _, h4 => simp at h4
  obtain ⟨s, s', d, h1, h2, h3, h4, h5, h6⟩ := key
  rw [Res.bind_eq_ok] at h1
  obtain ⟨s0, h0, h1⟩ := h1
  obtain ⟨p, x, hp, _, hn⟩ := h sampleCfg sampleCfg_wf s s' ⟨s0, _, h0, h1⟩ emptyInterest h2 _ d h3 (by simp) h4
    (pA.appendNumber 1) (by rw [h5]; simp)
  rw [Base.getSeqNo, h6] at hp
  simp only [NMap.find] at hp
  split at hp
  · simp only [Option.some.injEq] at hp
    subst hp
    have := (appendNumber_inj' (by decide) (by decide) hn).2
    omega
  · simp at hp

/-- C24, partial: every Data sent on a received Interest, honest or crafted, is either found in the segment
store, or the application nack, or a segment of a reply whose names are all current; the table is not
changed.  (Missing: what comes from the store may be older, `c24_false`; `c24_history_partial` covers it.) -/
theorem c24_reply_current_partial (cfg : Cfg) (hl : cfg.contentCodec.Lossless) (s s' : Full) (hs : Full.Reach cfg s)
    (i : Interest) (h : Full.step cfg s (.recvInterest i) = .ok s') :
    s'.base = s.base ∧ ∃ ext, s'.log = s.log ++ ext ∧ ∀ d, Out.data d ∈ ext →
      s.pub.replyFromStore i.name = some d ∨ (d.contentType = .nack ∧ d.content = []) ∨
      ∃ name buf fr segs content, IsSegmentation name buf fr segs ∧ d ∈ segs ∧ i.name <+: name ∧
        cfg.contentCodec.decompress buf = some (encodeNames content) ∧ content ≠ [] ∧
        ∀ n ∈ content, IsLive s.base.getSeqNo n := by
  have hinv := Full.reach_inv hs
  have none : ∀ is, Full.OwnInterest cfg s.base is → ∀ d, Out.data d ∉ is := by
    rintro is (rfl | ⟨n, _, rfl⟩) d hd <;> simp at hd
  have ans : ∀ content fr, Full.Replied cfg s s' i.name content fr → content ≠ [] →
      (∀ n ∈ content, IsLive s.base.getSeqNo n) → ∃ ext, s'.log = s.log ++ ext ∧ ∀ d, Out.data d ∈ ext →
      s.pub.replyFromStore i.name = some d ∨ (d.contentType = .nack ∧ d.content = []) ∨
      ∃ name buf fr segs content, IsSegmentation name buf fr segs ∧ d ∈ segs ∧ i.name <+: name ∧
        cfg.contentCodec.decompress buf = some (encodeNames content) ∧ content ≠ [] ∧
        ∀ n ∈ content, IsLive s.base.getSeqNo n := by
    rintro content fr ⟨buf, r, is, h1, h2, h3, h4, h5, _⟩ hne hlive
    refine ⟨_, by rw [h4, List.append_assoc], ?_⟩
    intro d hd
    rcases List.mem_append.mp hd with hd | hd
    · obtain ⟨d', hd', he⟩ := List.mem_map.mp hd
      cases he
      obtain ⟨y, e1, e2⟩ := hl (encodeNames content)
      rw [h1, Option.some.injEq] at e1
      subst e1
      exact Or.inr (Or.inr ⟨_, buf, fr, _, content, segmentData_spec _ _ _, publish_data_mem h2 hd',
        List.prefix_append _ _, e2, hne, hlive⟩)
    · exact absurd hd (none is h5 d)
  simp only [Full.step] at h
  split at h
  · refine ⟨Full.onSyncInterest_base hinv h, ?_⟩
    rcases Full.onSyncInterest_cases h with ⟨d, hd, rfl⟩ | ⟨_, ⟨d, _, hd, rfl⟩ | rfl | ⟨c2, c1, num, ib, df, _, _, _, _, _, _, h1⟩⟩
    · refine ⟨_, rfl, ?_⟩
      intro d' hd'
      simp only [List.mem_singleton, Out.data.injEq] at hd'
      subst hd'
      exact Or.inl hd
    · refine ⟨_, rfl, ?_⟩
      intro d' hd'
      simp only [List.mem_singleton, Out.data.injEq] at hd'
      subst hd'
      right; left
      unfold nackData at hd
      simp only [Res.bind_eq_ok, Res.ok.injEq] at hd
      obtain ⟨_, _, rfl⟩ := hd
      exact ⟨rfl, rfl⟩
    · exact ⟨[], by simp, by simp⟩
    · rcases h1 with ⟨_, h1⟩ | ⟨_, h1⟩
      · rcases Full.onUndecodable_reply h1 with ⟨_, is, h2, h3⟩ | ⟨h2, hne⟩
        · exact ⟨is, h2, fun d hd => absurd hd (none is h3 d)⟩
        · exact ans _ _ h2 hne (fun n hn => (Full.allContent_live hinv).mp hn)
      · rcases (Full.onDecoded_reply hinv h1).2 with ⟨_, h2⟩ | ⟨content, h2, hne, h3⟩
        · exact ⟨[], by simp [h2], by simp⟩
        · refine ans _ _ h2 hne ?_
          intro n hn
          obtain ⟨_, _, p, x, _, hp, hx, rfl, _⟩ := (h3 n).mp hn
          exact ⟨p, x, hp, hx, rfl⟩
  · cases h
    exact ⟨rfl, [], by simp, by simp⟩

/-- C24, partial, whole history: every Data a node ever sent is the application nack or a segment of a list of
names `p/q` such that at some earlier moment (`h`) `p` was registered and `q` was at most its number. -/
theorem c24_history_partial (cfg : Cfg) (hl : cfg.contentCodec.Lossless) (s : Full) (hs : Full.Reach cfg s)
    (d : Data) (hd : Out.data d ∈ s.log) :
    (d.contentType = .nack ∧ d.content = []) ∨
    ∃ name buf fr segs content h, IsSegmentation name buf fr segs ∧ d ∈ segs ∧
      cfg.contentCodec.decompress buf = some (encodeNames content) ∧ content ≠ [] ∧ h <+: s.base.hist ∧
      ∀ n ∈ content, ∃ p q, n = p.appendNumber q ∧ q ≤ ((replay h).find p).getD 0 := by
  rcases Full.reach_log hs hd with ⟨b, _, name, v, buf, fr, ⟨hb1, hb2⟩, ⟨content, hne, hc, hbuf⟩, hm⟩ | ⟨b, _, hn⟩
  · right
    have hr := hb1.replayed (Base.inv_new cfg) (Base.replayed_new cfg)
    obtain ⟨ext, he⟩ := hb2.hist
    obtain ⟨y, e1, e2⟩ := hl (encodeNames content)
    rw [hbuf, Option.some.injEq] at e1
    subst e1
    refine ⟨name.appendVersion v, buf, fr, _, content, b.hist, segmentData_spec _ _ _, hm, e2, hne, ⟨ext, he.symm⟩, ?_⟩
    intro n hn
    obtain ⟨p, q, cur, hp, hq, rfl⟩ := Full.known_of (hc n hn)
    refine ⟨p, q, rfl, ?_⟩
    have := hr.find p
    rw [show b.prefixes.find p = some cur from hp] at this
    rw [← this]
    exact hq
  · left
    have hn : nackData cfg b cfg.syncPrefix = .ok d := hn
    unfold nackData at hn
    simp only [Res.bind_eq_ok, Res.ok.injEq] at hn
    obtain ⟨_, _, rfl⟩ := hn
    exact ⟨rfl, rfl⟩

end PSync
