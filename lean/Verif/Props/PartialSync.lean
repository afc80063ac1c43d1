import Verif.Proofs.PartMicro
import Verif.Props.Replies
/-!
Properties C39–C44: what a PartialProducer answers.
-/
namespace PSync
open Spec

/-- `sync` is not `hello`. -/
theorem sync_not_hello {cfg : Cfg} {n : Name} (h : (cfg.syncPrefix ++ [SYNC]) <+: n) :
    (cfg.syncPrefix ++ [HELLO]).isPrefixOf n = false := by
  rw [← Bool.not_eq_true, List.isPrefixOf_iff_prefix]
  intro h'
  have := List.prefix_of_prefix_length_le h h' (by simp)
  have := this.eq_of_length (by simp)
  have := List.append_cancel_left this
  simp [SYNC, HELLO] at this

/-- A sync Interest reaches its handler. -/
theorem step_sync {cfg : Cfg} {s : Part} {i : Interest} (hp : (cfg.syncPrefix ++ [SYNC]) <+: i.name) :
    Part.step cfg s (.recvInterest i) = Part.onSyncInterest cfg s i := by
  simp only [Part.step, sync_not_hello hp, List.isPrefixOf_iff_prefix.mpr hp, if_true, Bool.false_eq_true, if_false]

/-! ### C39 -/

/-- The full claim C39 for answers to Interests (replies of one packet). -/
def Spec.PartRepliesCurrent : Prop :=
  ∀ cfg : Cfg, cfg.WF → ∀ s s' : Part, Part.Reach cfg s → ∀ (i : Interest) (bf : Bloom) (iblt : Table),
    SyncFields cfg i.name bf iblt → Part.step cfg s (.recvInterest i) = .ok s' →
    ∀ ext d, s'.log = s.log ++ ext → Out.data d ∈ ext → d.finalBlock = some ⟨50, [0]⟩ → ∀ st,
      StateMsg.wireDecode d.content = .ok st → ∀ n ∈ st.content,
        IsLive s.base.getSeqNo n ∧ bf.contains (n.take (n.length - 1)) = .ok true

/-- C39, partial: every Data sent on a received sync Interest, honest or crafted, is found in the segment
store, or is the application nack, or is a packet of a reply whose names are current publications of
prefixes in the filter of the Interest.  (Missing: what comes from the store may be older, `c39_false`;
`c39_history` covers it.) -/
theorem c39_reply_sound_partial (cfg : Cfg) (s s' : Part) (hs : Part.Reach cfg s) (i : Interest)
    (hp : (cfg.syncPrefix ++ [SYNC]) <+: i.name) (h : Part.step cfg s (.recvInterest i) = .ok s') :
    s'.base = s.base ∧ ∃ ext, s'.log = s.log ++ ext ∧ ∀ d, Out.data d ∈ ext →
      s.pub.replyFromStore i.name = some d ∨ (d.contentType = .nack ∧ d.content = []) ∨
      ∃ key bf iblt content ds, SyncFields cfg key bf iblt ∧ AsksFor i.name key ∧
        PartReply cfg s.base.iblt i.name key content ds ∧ d ∈ ds ∧
        ∀ n ∈ content, IsLive s.base.getSeqNo n ∧ bf.contains (n.take (n.length - 1)) = .ok true := by
  have hinv := Part.reach_inv hs
  rw [step_sync hp] at h
  refine ⟨Part.onSyncInterest_base h, ?_⟩
  rcases Part.onSyncInterest_cases' hp h with ⟨d, h1, rfl⟩ | ⟨_, rfl | ⟨key, bf, iblt, hf, hk, h1⟩⟩
  · refine ⟨_, rfl, fun d' hd => ?_⟩
    rw [List.mem_singleton, Out.data.injEq] at hd
    subst hd
    exact Or.inl h1
  · exact ⟨[], by simp, by simp⟩
  · obtain ⟨diff, _, ⟨_, d, hd, rfl⟩ | ⟨_, content, hc, ⟨_, c, r, h2, h3, rfl⟩ | ⟨_, _, rfl⟩⟩⟩ := Part.onSyncParsed_ok h1
    · refine ⟨_, rfl, fun d' hd' => ?_⟩
      rw [List.mem_singleton, Out.data.injEq] at hd'
      subst hd'
      right; left
      unfold nackData at hd
      simp only [Res.bind_eq_ok, Res.ok.injEq] at hd
      obtain ⟨_, _, rfl⟩ := hd
      exact ⟨rfl, rfl⟩
    · refine ⟨_, rfl, fun d hd => ?_⟩
      obtain ⟨d', hd', e⟩ := List.mem_map.mp hd
      cases e
      refine Or.inr (Or.inr ⟨key, bf, iblt, content, r.2, hf, hk, Part.publish_partReply h2 h3, hd', fun n hn => ?_⟩)
      rcases (Part.collect_spec _ _ _ hc n).mp hn with h4 | ⟨k, _, h4, h5⟩
      · cases h4
      · have hl := (hinv.bm _ _ (BiMap.findLeft_some h4)).2
        refine ⟨hl, ?_⟩
        obtain ⟨p, x, _, _, rfl⟩ := hl
        have : Name.dropLast (Name.appendNumber p x) 1 = (Name.appendNumber p x).take ((Name.appendNumber p x).length - 1) := by
          unfold Name.dropLast
          rw [if_pos (by simp [Name.appendNumber])]
        rw [← this]; exact h5
    · exact ⟨[], by simp, by simp⟩

/-- What `Served` says about the packets. -/
theorem served_packets {cfg : Cfg} {t : Table} {p : Name} {x : Nat} {es kept : List (Name × PPending)} {ds : List Data}
    (h : Served cfg t p x es ds kept) : ∀ d ∈ ds, ∃ n e content packets, (n, e) ∈ es ∧ PartReply cfg t n n content packets ∧
      d ∈ packets ∧ (content = [] ∨ content = [Name.appendNumber p x] ∧ e.bf.contains p = .ok true) := by
  induction h with
  | nil => simp
  | undecodable n e diff _ _ _ ih =>
    intro d hd
    obtain ⟨m, f, c, pk, h1, h2⟩ := ih d hd
    exact ⟨m, f, c, pk, List.mem_cons_of_mem _ h1, h2⟩
  | subscribed n e diff packets _ _ hb hr _ ih =>
    intro d hd
    rcases List.mem_append.mp hd with hd | hd
    · exact ⟨n, e, _, packets, List.mem_cons_self, hr, hd, Or.inr ⟨rfl, hb⟩⟩
    · obtain ⟨m, f, c, pk, h1, h2⟩ := ih d hd
      exact ⟨m, f, c, pk, List.mem_cons_of_mem _ h1, h2⟩
  | behind n e diff packets _ _ _ _ hr _ ih =>
    intro d hd
    rcases List.mem_append.mp hd with hd | hd
    · exact ⟨n, e, _, packets, List.mem_cons_self, hr, hd, Or.inl rfl⟩
    · obtain ⟨m, f, c, pk, h1, h2⟩ := ih d hd
      exact ⟨m, f, c, pk, List.mem_cons_of_mem _ h1, h2⟩
  | keep n e diff _ _ _ _ _ ih =>
    intro d hd
    obtain ⟨m, f, c, pk, h1, h2⟩ := ih d hd
    exact ⟨m, f, c, pk, List.mem_cons_of_mem _ h1, h2⟩

/-! ### C42 -/

/-- C42: publishName of a registered prefix treats every parked Interest by itself as `Served` says, with
the new IBF and the new number: it is dropped if the difference does not decode, answered with `p/x` if its
filter contains `p`, answered with empty content if the difference reached half the capacity, and stays
parked otherwise.  Nothing else is sent or changed. -/
theorem c42_publish_serves (cfg : Cfg) (s s' : Part) (hs : Part.Reach cfg s) (p : Name) (seq : Option Nat)
    (hreg : (s.base.getSeqNo p).isSome = true) (h : Part.step cfg s (.publishName p seq) = .ok s') :
    ∃ x ds, s'.base.getSeqNo p = some x ∧ Served cfg s'.base.iblt p x s.pending ds s'.pending ∧
      s'.log = s.log ++ ds.map Out.data := by
  simp only [Part.step] at h
  rcases Part.publishName_ok h with ⟨h1, _⟩ | ⟨cur, b, h1, h2, h3, rfl⟩
  · rw [Base.getSeqNo, h1] at hreg; cases hreg
  · have hx := Base.find_updateSeqNo h2 p
    rw [h1, if_pos rfl] at hx
    obtain ⟨ds, kept, e1, e2, e3, e4⟩ := Part.satisfy_served (t := s'.base.iblt) s.pending [] (s := { s with base := s'.base, made := s.made ++ [(p, Full.newSeq seq cur)] })
      rfl hx rfl (Part.reach_parked hs).sorted h3
    rw [List.nil_append] at e2
    exact ⟨_, ds, hx, by rw [e2]; exact e1, e3⟩

/-- C39 (and C37) for the answers to parked Interests: everything publishName sends is a packet of a reply to a
parked Interest that names nothing, or the published prefix with its current number if it is in the filter of
that Interest. -/
theorem c39_publish_current (cfg : Cfg) (s s' : Part) (hs : Part.Reach cfg s) (p : Name) (seq : Option Nat)
    (h : Part.step cfg s (.publishName p seq) = .ok s') :
    ∃ ds : List Data, s'.log = s.log ++ ds.map Out.data ∧ ∀ d ∈ ds, ∃ n e content packets, s.pending.find n = some e ∧
      SyncFields cfg n e.bf e.iblt ∧ PartReply cfg s'.base.iblt n n content packets ∧ d ∈ packets ∧
      (content = [] ∨ ∃ x, s'.base.getSeqNo p = some x ∧ content = [Name.appendNumber p x] ∧ e.bf.contains p = .ok true) := by
  cases hreg : s.base.getSeqNo p with
  | none =>
    simp only [Part.step] at h
    rcases Part.publishName_ok h with ⟨_, rfl⟩ | ⟨cur, b, h1, _⟩
    · exact ⟨[], by simp, by simp⟩
    · rw [Base.getSeqNo, h1] at hreg; cases hreg
  | some x0 =>
    obtain ⟨x, ds, h1, h2, h3⟩ := c42_publish_serves cfg s s' hs p seq (by rw [hreg]; rfl) h
    refine ⟨ds, h3, fun d hd => ?_⟩
    obtain ⟨n, e, content, packets, h4, h5, h6, h7⟩ := served_packets h2 d hd
    have hpk := Part.reach_parked hs
    have hf := NMap.find_of_mem hpk.sorted h4
    refine ⟨n, e, content, packets, hf, hpk.fields n e hf, h5, h6, h7.imp id (fun h => ⟨x, h1, h⟩)⟩

theorem helloContent_spec {b : Base} (hb : b.Inv) (n : Name) :
    n ∈ Part.helloContent b ↔ ∃ p x, b.getSeqNo p = some x ∧ n = Name.appendNumber p x := by
  unfold Part.helloContent
  rw [List.mem_map]
  constructor
  · rintro ⟨⟨p, x⟩, hm, rfl⟩
    exact ⟨p, x, (NMap.find_iff hb.sorted).mpr hm, rfl⟩
  · rintro ⟨p, x, hp, rfl⟩
    exact ⟨(p, x), NMap.mem_of_find hp, rfl⟩

/-- C39 over the whole life of a producer, with all packets from the store: every Data it has ever sent is an
application nack, or a packet of a reply that was made in an earlier state `r`.  This reply carries the IBF of `r` in
its name, and lists either all prefixes with their numbers in `r` (hello), or prefixes that pass the filter in
its name, with their numbers in `r` (sync). -/
theorem c39_history (cfg : Cfg) (ops : List Part.Op) (s : Part) (h : Part.run cfg (Part.init cfg) ops = .ok s) (d : Data)
    (hd : Out.data d ∈ s.log) : (d.contentType = .nack ∧ d.content = []) ∨
    ∃ pre post r, ops = pre ++ post ∧ Part.run cfg (Part.init cfg) pre = .ok r ∧ Part.run cfg r post = .ok s ∧
    ∃ c name content v fr segs, r.base.iblt.toComponent cfg.ibltCodec = .ok c ∧
      IsSegmentation (name.appendVersion v) (encodeNames content) fr segs ∧ d ∈ segs ∧
      ((name = cfg.syncPrefix ++ [HELLO, c] ∧
          ∀ n, n ∈ content ↔ ∃ p x, r.base.getSeqNo p = some x ∧ n = Name.appendNumber p x) ∨
       (∃ key bf iblt, SyncFields cfg key bf iblt ∧ name = key ++ [c] ∧
          ∀ n ∈ content, ∃ p x, r.base.getSeqNo p = some x ∧ n = Name.appendNumber p x ∧ bf.contains p = .ok true)) := by
  rcases Part.reach_recorded ⟨ops, h⟩ hd with ⟨b, key, _, _, _, hn⟩ | ⟨k, e, h1, h2⟩
  · left
    unfold nackData at hn
    simp only [Res.bind_eq_ok, Res.ok.injEq] at hn
    obtain ⟨c, _, rfl⟩ := hn
    exact ⟨rfl, rfl⟩
  · right
    rcases Part.run_replies (s0 := Part.init cfg) ⟨NMap.sorted_nil, fun n e h => by cases h⟩ h e (List.mem_of_getElem? h1)
      with h3 | ⟨pre, post, r, h4, h5, h6, h7⟩
    · simp [Part.init] at h3
    · refine ⟨pre, post, r, h4, h5, h6, ?_⟩
      have hinv : r.base.Inv := Part.reach_inv ⟨pre, h5⟩
      obtain ⟨nm, buf, fr⟩ := e
      have hseg := segmentData_spec (nm.appendVersion (cfg.version k)) buf fr
      cases h7 with
      | hello c hc => exact ⟨c, _, _, _, _, _, hc, hseg, h2, Or.inl ⟨rfl, helloContent_spec hinv⟩⟩
      | asked n key bf iblt diff content c _ hf _ _ _ hcol hc =>
        refine ⟨c, _, _, _, _, _, hc, hseg, h2, Or.inr ⟨key, bf, iblt, hf, rfl, fun n hn => ?_⟩⟩
        rcases (Part.collect_spec _ _ _ hcol n).mp hn with h | ⟨j, _, h8, h9⟩
        · simp at h
        · obtain ⟨_, p, x, hp, _, rfl⟩ := hinv.bm _ _ (BiMap.findLeft_some h8)
          exact ⟨p, x, hp, rfl, by rwa [Full.dropLast_appendNumber] at h9⟩
      | parked p x key bf iblt diff sub c _ hf hp _ _ hsub hc =>
        refine ⟨c, _, _, _, _, _, hc, hseg, h2, Or.inr ⟨key, bf, iblt, hf, rfl, fun n hn => ?_⟩⟩
        cases sub with
        | false => simp at hn
        | true =>
          simp only [if_true, List.mem_singleton] at hn
          exact ⟨p, x, hp, hn, hsub⟩

/-! ### C40 -/

/-- A sync Interest is parked as the specification says. -/
theorem Part.parkedAs {cfg : Cfg} {s : Part} (hs : Part.Reach cfg s) (i : Interest) {key : Name} {bf : Bloom}
    {iblt : Table} (hf : SyncFields cfg key bf iblt) :
    ParkedAs s { s with pending := s.pending.set key (Part.renewed s i key bf iblt) } i key bf iblt := by
  have hpk := Part.reach_parked hs
  refine ⟨rfl, rfl, rfl, ⟨Part.renewed s i key bf iblt, ?_, rfl, rfl, ?_, ?_⟩, fun m hm => ?_⟩
  · exact (NMap.find_set _ _ _ _).trans (if_pos rfl)
  · unfold Part.renewed
    cases hfd : s.pending.find key with
    | none => rfl
    | some e => exact (Part.syncFields_unique (hpk.fields key e hfd) hf).1
  · unfold Part.renewed
    cases hfd : s.pending.find key with
    | none => rfl
    | some e => exact (Part.syncFields_unique (hpk.fields key e hfd) hf).2
  · exact (NMap.find_set _ _ _ _).trans (if_neg (Ne.symm hm))

/-- C40: a sync Interest that carries an IBF the producer had in a state `r` (or another reachable state of a
producer of the same capacity), without hash collisions and not answered from the store, is compared
exactly: if the difference decodes, the names of the answer are exactly the publications that are current
now, were not current in `r`, and whose prefix passes the filter.  The reply is sent at once if there are such
names or the difference has reached half the capacity, and otherwise the Interest is parked and nothing is sent. -/
theorem c40_reply_complete (cfg : Cfg) (he : 0 < cfg.expected) (s s' r : Part) (hs : Part.Reach cfg s)
    (hr : Part.Reach cfg r) (hcs : CollisionFree s.base.hist) (hcr : CollisionFree r.base.hist)
    (hnc : NoCollisions cfg.expected s.base.getSeqNo r.base.getSeqNo)
    (i : Interest) (key : Name) (bf : Bloom) (hf : SyncFields cfg key bf r.base.iblt) (hk : AsksFor i.name key)
    (hst : s.pub.replyFromStore i.name = none) (h : Part.step cfg s (.recvInterest i) = .ok s') :
    ∃ diff, Table.diff cfg.fuel s.base.iblt r.base.iblt = .ok diff ∧ (diff.canDecode = true →
      ∃ content, (∀ n, n ∈ content ↔ IsLive s.base.getSeqNo n ∧ ¬ IsLive r.base.getSeqNo n ∧
          bf.contains (n.take (n.length - 1)) = .ok true) ∧
        (((cfg.expected / 2 ≤ diff.positive.length + diff.negative.length ∨ content ≠ []) ∧
            ∃ ds, PartReply cfg s.base.iblt i.name key content ds ∧ s'.log = s.log ++ ds.map Out.data) ∨
         (diff.positive.length + diff.negative.length < cfg.expected / 2 ∧ content = [] ∧
            ParkedAs s s' i key bf r.base.iblt))) := by
  have hinv := Part.reach_inv hs
  have hrinv := Part.reach_inv hr
  have hsx := Part.reach_exact hs hcs
  have hrx := Part.reach_exact hr hcr
  have hp : (cfg.syncPrefix ++ [SYNC]) <+: i.name := by
    obtain ⟨c1, c2, c3, c4, _, _, rfl, _⟩ := hf
    rcases hk with hk | ⟨v, g, hk⟩
    · rw [hk]; exact ⟨[c1, c2, c3, c4], by simp⟩
    · rw [hk]; exact ⟨[c1, c2, c3, c4, v, g], by simp⟩
  rw [step_sync hp, Part.onSyncInterest_wf hst hf hk] at h
  obtain ⟨diff, hd, hcase⟩ := Part.onSyncParsed_ok h
  refine ⟨diff, hd, fun hdec => ?_⟩
  obtain ⟨h1, h2, _⟩ := Base.diff_live he hinv hrinv hsx hrx hnc hd hdec
  rcases hcase with ⟨h3, _⟩ | ⟨_, content, hc, hcase⟩
  · rw [hdec] at h3; cases h3
  have hmem : ∀ n, n ∈ content ↔ IsLive s.base.getSeqNo n ∧ ¬ IsLive r.base.getSeqNo n ∧
      bf.contains (n.take (n.length - 1)) = .ok true := by
    intro n
    rw [Part.collect_spec _ _ _ hc n]
    have hdrop : ∀ n : Name, IsLive s.base.getSeqNo n → Name.dropLast n 1 = n.take (n.length - 1) := by
      rintro n ⟨p, x, _, _, rfl⟩
      unfold Name.dropLast
      rw [if_pos (by simp [Name.appendNumber])]
    constructor
    · rintro (h4 | ⟨k, hk', h4, h5⟩)
      · cases h4
      · obtain ⟨h6, hl⟩ := hinv.bm _ _ (BiMap.findLeft_some h4)
        refine ⟨hl, ?_, by rw [← hdrop n hl]; exact h5⟩
        have := (h1 n hl).mp (by rw [← h6]; exact hk')
        exact this
    · rintro ⟨hl, hnl, hb⟩
      refine Or.inr ⟨nameHash n, (h1 n hl).mpr hnl, ?_, by rw [hdrop n hl]; exact hb⟩
      obtain ⟨p, x, hpx, hx0, rfl⟩ := hl
      exact BiMap.findLeft_of_mem hinv.nodupL (hsx.all p x hpx hx0)
  refine ⟨content, hmem, ?_⟩
  rcases hcase with ⟨h3, c, rr, h4, h5, rfl⟩ | ⟨h3, h6, rfl⟩
  · exact Or.inl ⟨h3, rr.2, Part.publish_partReply h4 h5, rfl⟩
  · exact Or.inr ⟨h3, h6, Part.parkedAs hs i hf⟩

/-! ### C77 -/

/-- C77: what becomes of a well-formed sync Interest that is not answered from the store.  Exactly one of three
things happens, and which one is decided by the difference of the two IBFs: if it does not decode, one nack
is sent and nothing changes; if it decodes and has reached half the capacity, or holds a publication whose
prefix passes the filter, a reply with those publications is sent and nothing is parked; otherwise the Interest
is parked with its filter and its IBF until its lifetime is over, and nothing is sent. -/
theorem c77_arrival (cfg : Cfg) (s s' : Part) (hs : Part.Reach cfg s) (i : Interest) (key : Name) (bf : Bloom)
    (iblt : Table) (hf : SyncFields cfg key bf iblt) (hk : AsksFor i.name key)
    (hst : s.pub.replyFromStore i.name = none) (h : Part.step cfg s (.recvInterest i) = .ok s') :
    ∃ diff, Table.diff cfg.fuel s.base.iblt iblt = .ok diff ∧
      ((diff.canDecode = false ∧ ∃ d, d.contentType = .nack ∧ s' = { s with log := s.log ++ [.data d] }) ∨
       (diff.canDecode = true ∧ ∃ content,
         (∀ n, n ∈ content ↔ ∃ k ∈ diff.positive, s.base.biMap.findLeft k = some n ∧
            bf.contains (n.take (n.length - 1)) = .ok true) ∧
         (((cfg.expected / 2 ≤ diff.positive.length + diff.negative.length ∨ content ≠ []) ∧
            ∃ ds, PartReply cfg s.base.iblt i.name key content ds ∧ s'.log = s.log ++ ds.map Out.data ∧
              s'.pending = s.pending) ∨
          (diff.positive.length + diff.negative.length < cfg.expected / 2 ∧ content = [] ∧
            ParkedAs s s' i key bf iblt)))) := by
  have hinv := Part.reach_inv hs
  have hp : (cfg.syncPrefix ++ [SYNC]) <+: i.name := by
    obtain ⟨c1, c2, c3, c4, _, _, rfl, _⟩ := hf
    rcases hk with hk | ⟨v, g, hk⟩
    · rw [hk]; exact ⟨[c1, c2, c3, c4], by simp⟩
    · rw [hk]; exact ⟨[c1, c2, c3, c4, v, g], by simp⟩
  rw [step_sync hp, Part.onSyncInterest_wf hst hf hk] at h
  obtain ⟨diff, hd, ⟨h1, d, h2, rfl⟩ | ⟨h1, content, hc, hcase⟩⟩ := Part.onSyncParsed_ok h
  · refine ⟨diff, hd, Or.inl ⟨h1, d, ?_, rfl⟩⟩
    unfold nackData at h2
    simp only [Res.bind_eq_ok, Res.ok.injEq] at h2
    obtain ⟨c, hc, rfl⟩ := h2
    rfl
  · refine ⟨diff, hd, Or.inr ⟨h1, content, fun n => ?_, ?_⟩⟩
    · rw [Part.collect_spec _ _ _ hc n]
      have hdrop : ∀ k, s.base.biMap.findLeft k = some n → Name.dropLast n 1 = n.take (n.length - 1) := by
        intro k hk'
        obtain ⟨p, x, _, _, rfl⟩ := (hinv.bm _ _ (BiMap.findLeft_some hk')).2
        unfold Name.dropLast
        rw [if_pos (by simp [Name.appendNumber])]
      constructor
      · rintro (h4 | ⟨k, h5, h6, h7⟩)
        · cases h4
        · exact ⟨k, h5, h6, by rw [← hdrop k h6]; exact h7⟩
      · rintro ⟨k, h5, h6, h7⟩
        exact Or.inr ⟨k, h5, h6, by rw [hdrop k h6]; exact h7⟩
    · rcases hcase with ⟨h3, c, rr, h4, h5, rfl⟩ | ⟨h3, h6, rfl⟩
      · exact Or.inl ⟨h3, rr.2, Part.publish_partReply h4 h5, rfl, rfl⟩
      · exact Or.inr ⟨h3, h6, Part.parkedAs hs i hf⟩

/-! ### C41 -/

/-- C41: a well-formed sync Interest that is not answered from the store is answered with a nack exactly if
the difference of the IBFs does not decode.  The nack is named `key/<current IBF>/<segment 0>`; nothing else
is sent and the producer does not change. -/
theorem c41_nack_condition (cfg : Cfg) (s s' : Part) (i : Interest) (key : Name) (bf : Bloom) (iblt : Table)
    (hf : SyncFields cfg key bf iblt) (hk : AsksFor i.name key) (hst : s.pub.replyFromStore i.name = none)
    (h : Part.step cfg s (.recvInterest i) = .ok s') :
    ∃ diff ext, Table.diff cfg.fuel s.base.iblt iblt = .ok diff ∧ s'.log = s.log ++ ext ∧
      ((∃ d ∈ dataOf ext, d.contentType = .nack) ↔ diff.canDecode = false) ∧
      (diff.canDecode = false → ∃ c d, s.base.iblt.toComponent cfg.ibltCodec = .ok c ∧
        d.name = key ++ [c, ⟨50, [0]⟩] ∧ d.contentType = .nack ∧ d.content = [] ∧ d.freshness = cfg.freshness ∧
        d.finalBlock = some ⟨50, [0]⟩ ∧
        s' = { s with log := s.log ++ [.data d] }) := by
  have hp : (cfg.syncPrefix ++ [SYNC]) <+: i.name := by
    obtain ⟨c1, c2, c3, c4, _, _, rfl, _⟩ := hf
    rcases hk with hk | ⟨v, g, hk⟩
    · rw [hk]; exact ⟨[c1, c2, c3, c4], by simp⟩
    · rw [hk]; exact ⟨[c1, c2, c3, c4, v, g], by simp⟩
  rw [step_sync hp, Part.onSyncInterest_wf hst hf hk] at h
  obtain ⟨diff, hd, ⟨h1, d, h2, rfl⟩ | ⟨h1, content, hc, ⟨_, c, rr, h4, h5, rfl⟩ | ⟨_, h6, rfl⟩⟩⟩ := Part.onSyncParsed_ok h
  · unfold nackData at h2
    simp only [Res.bind_eq_ok, Res.ok.injEq] at h2
    obtain ⟨c, hc, rfl⟩ := h2
    refine ⟨diff, _, hd, rfl, ⟨fun _ => h1, fun _ => ⟨_, List.mem_singleton.mpr rfl, rfl⟩⟩, fun _ => ⟨c, _, hc, ?_, rfl, rfl, rfl, rfl, rfl⟩⟩
    simp only [Name.appendSegment, List.append_assoc]
    rfl
  · refine ⟨diff, _, hd, rfl, ⟨?_, fun h => absurd (h1.symm.trans h) (by decide)⟩, fun h => absurd (h1.symm.trans h) (by decide)⟩
    rintro ⟨d, hd', hk'⟩
    rw [dataOf_map] at hd'
    have := publish_blob h5 d hd'
    rw [this] at hk'; cases hk'
  · refine ⟨diff, [], hd, by simp, ⟨?_, fun h => absurd (h1.symm.trans h) (by decide)⟩, fun h => absurd (h1.symm.trans h) (by decide)⟩
    rintro ⟨d, hd', _⟩
    simp [dataOf] at hd'

/-! ### C44 -/

/-- A hello Interest: `…/hello` or `…/hello/<IBF>/<version>/<segment>`. -/
def Spec.IsHello (n : Name) : Prop := ∃ l, n = l ++ [HELLO] ∨ ∃ a b c, n = l ++ [HELLO, a, b, c]

/-- C44: a hello Interest that is not answered from the store is answered with the list of all registered
prefixes, once each and with their current numbers, under `/<sync-prefix>/hello/<current IBF>`; the producer
changes only by storing this reply. -/
theorem c44_hello_reply (cfg : Cfg) (s s' : Part) (hs : Part.Reach cfg s) (i : Interest)
    (hp : (cfg.syncPrefix ++ [HELLO]) <+: i.name) (hh : Spec.IsHello i.name)
    (hst : s.pub.replyFromStore i.name = none) (h : Part.step cfg s (.recvInterest i) = .ok s') :
    ∃ c content ds, s.base.iblt.toComponent cfg.ibltCodec = .ok c ∧
      content.Nodup ∧ (∀ n, n ∈ content ↔ ∃ p x, s.base.getSeqNo p = some x ∧ n = Name.appendNumber p x) ∧
      SentFor i.name (cfg.syncPrefix ++ [HELLO, c]) (encodeNames content) cfg.helloFreshness ds ∧
      s' = { s with pub := s'.pub, replies := s'.replies, log := s.log ++ ds.map Out.data } := by
  have hinv := Part.reach_inv hs
  simp only [Part.step, List.isPrefixOf_iff_prefix.mpr hp, if_true] at h
  unfold Part.onHelloInterest at h
  simp only [hst, Res.bind_eq_ok] at h
  obtain ⟨last, h1, c4, h2, h⟩ := h
  have hc4 : c4 = HELLO := by
    obtain ⟨l, hl | ⟨a, b, c, hl⟩⟩ := hh
    · have e := getFromEnd_mid l HELLO []
      simp only [List.length_nil, Nat.zero_add] at e
      rw [hl, e, Res.ok.injEq] at h1
      subst h1
      rw [if_pos rfl, Res.ok.injEq] at h2
      exact h2.symm
    · have e := getFromEnd_mid l HELLO [a, b, c]
      simp only [List.length_cons, List.length_nil, Nat.zero_add, Nat.reduceAdd] at e
      split at h2
      · rw [Res.ok.injEq] at h2; exact h2.symm
      · rw [hl, e, Res.ok.injEq] at h2; exact h2.symm
  rw [if_neg (by simp [hc4])] at h
  simp only [Res.bind_eq_ok] at h
  obtain ⟨c, hc, h⟩ := h
  obtain ⟨r, h3, rfl⟩ := Part.publish_ok h
  refine ⟨c, Part.helloContent s.base, r.2, hc, ?_, ?_, publish_sent h3, rfl⟩
  · unfold Part.helloContent
    refine List.Nodup.map_on ?_ (List.Nodup.of_map Prod.fst (NMap.keys_nodup hinv.sorted))
    rintro ⟨p, x⟩ hpx ⟨q, y⟩ hqy heq
    obtain ⟨rfl, rfl⟩ := appendNumber_inj' (hinv.lt p x (NMap.find_of_mem hinv.sorted hpx))
      (hinv.lt q y (NMap.find_of_mem hinv.sorted hqy)) heq
    rfl
  · intro n
    unfold Part.helloContent
    rw [List.mem_map]
    constructor
    · rintro ⟨⟨p, x⟩, hpx, rfl⟩
      exact ⟨p, x, NMap.find_of_mem hinv.sorted hpx, rfl⟩
    · rintro ⟨p, x, hpx, rfl⟩
      exact ⟨(p, x), NMap.mem_of_find hpx, rfl⟩

/-- C44: other Interests under `/<sync-prefix>/hello` (with at least four components and not in the store)
are ignored. -/
theorem c44_other_ignored (cfg : Cfg) (s s' : Part) (i : Interest)
    (hp : (cfg.syncPrefix ++ [HELLO]) <+: i.name) (hh : ¬ Spec.IsHello i.name) (hl : 4 ≤ i.name.length)
    (hst : s.pub.replyFromStore i.name = none) (h : Part.step cfg s (.recvInterest i) = .ok s') : s' = s := by
  simp only [Part.step, List.isPrefixOf_iff_prefix.mpr hp, if_true] at h
  unfold Part.onHelloInterest at h
  simp only [hst, Res.bind_eq_ok] at h
  obtain ⟨last, h1, c4, h2, h⟩ := h
  have hne : c4 ≠ HELLO := by
    rintro rfl
    apply hh
    split at h2
    · rename_i hla
      subst hla
      have hn : i.name ≠ [] := by rintro e; rw [e] at hl; simp at hl
      rw [getFromEnd_one hn, Res.ok.injEq] at h1
      exact ⟨List.dropLast i.name, Or.inl (by rw [← h1]; exact (List.dropLast_append_getLast hn).symm)⟩
    · have hsplit : ∃ l a b c d, i.name = l ++ [a, b, c, d] := by
        obtain ⟨l, r, e, hr⟩ : ∃ l r, i.name = l ++ r ∧ r.length = 4 :=
          ⟨i.name.take (i.name.length - 4), i.name.drop (i.name.length - 4), (List.take_append_drop _ _).symm, by
            rw [List.length_drop]; omega⟩
        match r, hr with
        | [a, b, c, d], _ => exact ⟨l, a, b, c, d, e⟩
      obtain ⟨l, a, b, c, d, e⟩ := hsplit
      have e' := getFromEnd_mid l a [b, c, d]
      simp only [List.length_cons, List.length_nil, Nat.zero_add, Nat.reduceAdd] at e'
      rw [e, e', Res.ok.injEq] at h2
      subst h2
      exact ⟨l, Or.inr ⟨b, c, d, e⟩⟩
  rw [if_pos hne] at h
  cases h; rfl

/-! ### C43 -/

/-- `n` was received during `ops` in an Interest that is still alive at `now`. -/
def Spec.PartReceivedAlive (cfg : Cfg) (ops : List Part.Op) (n : Name) (now : Nat) : Prop :=
  ∃ pre i post s1, ops = pre ++ Part.Op.recvInterest i :: post ∧ Part.run cfg (Part.init cfg) pre = .ok s1 ∧
    AsksFor i.name n ∧ now ≤ s1.now + i.lifetime + cfg.lag

/-- The full claim C43: at any moment a parked Interest was received at most its lifetime ago. -/
def Spec.PartParkedAlive : Prop :=
  ∀ cfg : Cfg, cfg.WF → ∀ (s : Part) (ops : List Part.Op), Part.run cfg (Part.init cfg) ops = .ok s →
    ∀ n ∈ s.pending.keys, Spec.PartReceivedAlive cfg ops n s.now

/-- A parked Interest has its own timer, or was received with a version and a segment number. -/
def Part.Origin (cfg : Cfg) (ops : List Part.Op) (now : Nat) (n : Name) (e : PPending) : Prop :=
  ∃ pre i post s1, ops = pre ++ Part.Op.recvInterest i :: post ∧ Part.run cfg (Part.init cfg) pre = .ok s1 ∧
    AsksFor i.name n ∧ e.expKey = i.name ∧
    ((e.timer = some (s1.now + i.lifetime) ∧ now ≤ s1.now + i.lifetime + cfg.lag) ∨ i.name ≠ n)

theorem Part.Origin.later {cfg : Cfg} {ops : List Part.Op} {now : Nat} {n : Name} {e e' : PPending} {op : Part.Op}
    (h : Part.Origin cfg ops now n e) (h1 : e'.expKey = e.expKey) (h2 : e'.timer = e.timer ∨ e.expKey ≠ n) {now' : Nat}
    (h3 : ∀ d, e.timer = some d → now ≤ d + cfg.lag → now' ≤ d + cfg.lag) : Part.Origin cfg (ops ++ [op]) now' n e' := by
  obtain ⟨pre, i, post, s1, e1, e2, e3, e4, e5⟩ := h
  refine ⟨pre, i, post ++ [op], s1, by rw [e1]; simp, e2, e3, h1.trans e4, ?_⟩
  rcases h2 with h2 | h2
  · rcases e5 with ⟨e5, e6⟩ | e5
    · exact Or.inl ⟨h2.trans e5, h3 _ e5 e6⟩
    · exact Or.inr e5
  · exact Or.inr (by rw [← e4]; exact h2)

theorem Part.onSyncInterest_now {cfg : Cfg} {s s' : Part} {i : Interest}
    (hp : (cfg.syncPrefix ++ [SYNC]) <+: i.name) (h : Part.onSyncInterest cfg s i = .ok s') : s'.now = s.now := by
  rcases Part.onSyncInterest_cases' hp h with ⟨d, _, rfl⟩ | ⟨_, rfl | ⟨key, bf, iblt, hf, _, h1⟩⟩
  · rfl
  · rfl
  · obtain ⟨diff, _, ⟨_, d, _, rfl⟩ | ⟨_, content, _, ⟨_, c, r, _, _, rfl⟩ | ⟨_, _, rfl⟩⟩⟩ := Part.onSyncParsed_ok h1 <;> rfl

theorem Part.satisfyOne_shrink {cfg : Cfg} {p : Name} {s s' : Part} {e : Name × PPending}
    (h : Part.satisfyOne cfg p s e = .ok s') :
    s'.now = s.now ∧ ∀ n x, s'.pending.find n = some x → s.pending.find n = some x := by
  have er : ∀ n x, (s.pending.erase e.1).find n = some x → s.pending.find n = some x := by
    intro n x hx
    rw [NMap.find_erase] at hx
    split at hx
    · cases hx
    · exact hx
  obtain ⟨diff, _, ⟨_, rfl⟩ | ⟨_, sub, _, ⟨_, c, r, _, _, rfl⟩ | ⟨_, _, c, r, _, _, rfl⟩ | ⟨_, _, rfl⟩⟩⟩ := Part.satisfyOne_ok h
  · exact ⟨rfl, er⟩
  · exact ⟨rfl, er⟩
  · exact ⟨rfl, er⟩
  · exact ⟨rfl, fun _ _ h => h⟩

theorem Part.publishName_shrink {cfg : Cfg} {p : Name} {q : Option Nat} {s s' : Part}
    (h : Part.publishName cfg s p q = .ok s') :
    s'.now = s.now ∧ ∀ n x, s'.pending.find n = some x → s.pending.find n = some x := by
  rcases Part.publishName_ok h with ⟨_, rfl⟩ | ⟨cur, b, _, _, h2, _⟩
  · exact ⟨rfl, fun _ _ h => h⟩
  · have := foldRes_rel (Q := fun a b : Part => b.now = a.now ∧ ∀ n x, b.pending.find n = some x → a.pending.find n = some x)
      (fun a => ⟨rfl, fun _ _ h => h⟩) (fun a b c h1 h2 => ⟨h2.1.trans h1.1, fun n x h => h1.2 n x (h2.2 n x h)⟩) _
      (fun _ _ _ _ h => Part.satisfyOne_shrink h) h2
    exact this

theorem Part.onHelloInterest_now {cfg : Cfg} {s s' : Part} {i : Interest}
    (h : Part.onHelloInterest cfg s i = .ok s') : s'.now = s.now := by
  unfold Part.onHelloInterest at h
  split at h
  · cases h; rfl
  · simp only [Res.bind_eq_ok] at h
    obtain ⟨l, _, c4, _, h⟩ := h
    split at h
    · cases h; rfl
    · simp only [Res.bind_eq_ok] at h
      obtain ⟨c, _, h⟩ := h
      obtain ⟨r, _, rfl⟩ := Part.publish_ok h
      rfl

theorem Part.park_origin {cfg : Cfg} (ops : List Part.Op) :
    ∀ {s : Part}, Part.run cfg (Part.init cfg) ops = .ok s → ∀ n e, s.pending.find n = some e →
      Part.Origin cfg ops s.now n e := by
  induction ops using List.reverseRecOn with
  | nil =>
    intro s h n e he
    simp only [Part.run, foldRes, Res.ok.injEq] at h
    subst h
    cases he
  | append_singleton ops op ih =>
    intro s h n e he
    unfold Part.run at h
    rw [foldRes_append] at h
    simp only [Res.bind_eq_ok, foldRes, Res.ok.injEq] at h
    obtain ⟨s1, h1, s2, h2, rfl⟩ := h
    have hpk := Part.reach_parked ⟨ops, h1⟩
    have old : s2.now = s1.now → s1.pending.find n = some e → Part.Origin cfg (ops ++ [op]) s2.now n e := by
      intro hn hf
      exact (ih h1 n e hf).later rfl (Or.inl rfl) (fun d _ hd => by rw [hn]; exact hd)
    cases op with
    | addUserNode p => simp only [Part.step, Res.ok.injEq] at h2; subst h2; exact old rfl he
    | removeUserNode p =>
      simp only [Part.step, Res.bind_eq_ok, Res.ok.injEq] at h2
      obtain ⟨b, _, rfl⟩ := h2
      exact old rfl he
    | publishName p q =>
      obtain ⟨h3, h4⟩ := Part.publishName_shrink h2
      exact old h3 (h4 n e he)
    | recvInterest i =>
      simp only [Part.step] at h2
      split at h2
      · exact old (Part.onHelloInterest_now h2) (by rw [← Part.onHelloInterest_pending h2]; exact he)
      · split at h2
        · rename_i hp
          have hp := List.isPrefixOf_iff_prefix.mp hp
          have hnow := Part.onSyncInterest_now hp h2
          rcases Part.onSyncInterest_cases' hp h2 with ⟨d, _, rfl⟩ | ⟨_, rfl | ⟨key, bf, iblt, hf, hk, h3⟩⟩
          · exact old rfl he
          · exact old rfl he
          · obtain ⟨diff, _, ⟨_, d, _, rfl⟩ | ⟨_, content, _, ⟨_, c, r, _, _, rfl⟩ | ⟨_, _, rfl⟩⟩⟩ := Part.onSyncParsed_ok h3
            · exact old rfl he
            · exact old rfl he
            · simp only at he
              rw [NMap.find_set] at he
              split at he
              · rename_i hkn
                subst hkn
                rw [hpk.renewed hf, Option.some.injEq] at he
                subst he
                exact ⟨ops, i, [], s1, rfl, h1, hk, rfl, Or.inl ⟨rfl, by simp only []; omega⟩⟩
              · exact old rfl he
        · cases h2; exact old rfl he
    | tick t =>
      simp only [Part.step, Res.ok.injEq] at h2
      split at h2
      · rename_i ht
        subst h2
        refine (ih h1 n e he).later rfl (Or.inl rfl) (fun d hd _ => ?_)
        simp only [Bool.and_eq_true, Part.timersAfter, List.all_eq_true] at ht
        have := ht.2.1 _ (NMap.mem_of_find he)
        rw [hd] at this
        simpa using this
      · subst h2; exact old rfl he
    | expire m =>
      simp only [Part.step] at h2
      split at h2
      · rename_i e0 hm
        split at h2
        · rename_i d hd
          split at h2
          · simp only [Res.ok.injEq] at h2
            subst h2
            simp only at he
            rw [NMap.find_erase] at he
            split at he
            · cases he
            · rename_i hne
              rw [NMap.find_set] at he
              split at he
              · rename_i hmn
                subst hmn
                rw [Option.some.injEq] at he
                subst he
                exact (ih h1 m e0 hm).later (e' := { e0 with timer := none }) rfl (Or.inr hne) (fun _ _ h => h)
              · exact old rfl he
          · cases h2; exact old rfl he
        · cases h2; exact old rfl he
      · cases h2; exact old rfl he
    | fireStore => simp only [Part.step, Res.ok.injEq] at h2; subst h2; exact old rfl he

/-- C43, partial: at any moment, a parked Interest `n` was received at most its lifetime ago, unless it was
received at some time with a version and a segment number appended.  (Missing: such Interests, `c43_false`.) -/
theorem c43_expires_partial (cfg : Cfg) (s : Part) (ops : List Part.Op) (h : Part.run cfg (Part.init cfg) ops = .ok s)
    (n : Name) (hn : n ∈ s.pending.keys) (h4 : ∀ i, Part.Op.recvInterest i ∈ ops → AsksFor i.name n → i.name = n) :
    Spec.PartReceivedAlive cfg ops n s.now := by
  rw [NMap.mem_keys, Option.isSome_iff_exists] at hn
  obtain ⟨e, he⟩ := hn
  obtain ⟨pre, i, post, s1, h1, h2, h3, _, ⟨_, h5⟩ | h5⟩ := Part.park_origin ops h n e he
  · exact ⟨pre, i, post, s1, h1, h2, h3, h5⟩
  · exact absurd (h4 i (by rw [h1]; simp) h3) h5

/-! ### Witnesses and examples -/

/-- A sync Interest of a consumer that knows nothing (empty IBF) and whose filter accepts every prefix. -/
def allInterest : Interest :=
  ⟨nameOf [115] ++ [SYNC, ⟨8, [6]⟩, ⟨8, [1]⟩, ⟨8, List.replicate 11 0xff#8⟩, ⟨8, List.replicate 72 0⟩], 1000, 1⟩

/-- The same with an empty filter. -/
def noneInterest : Interest :=
  ⟨nameOf [115] ++ [SYNC, ⟨8, [6]⟩, ⟨8, [1]⟩, ⟨8, List.replicate 11 0⟩, ⟨8, List.replicate 72 0⟩], 1000, 1⟩

def partRun (ops : List Part.Op) : Res Part := Part.run sampleCfg (Part.init sampleCfg) ops

/-- Non-vacuity for `c39_history`: two packets, a hello reply and a reply to a sync Interest that is sent again
from the store after a further publication. -/
example : (partRun [.addUserNode pA, .publishName pA none, .recvInterest ⟨nameOf [115] ++ [HELLO], 1000, 1⟩, .recvInterest allInterest,
      .publishName pA none, .recvInterest allInterest]).get?.map (fun s : Part =>
        ((dataOf s.log).map (fun d => (StateMsg.wireDecode d.content).get?.map (·.content)), s.base.prefixes))
    = some ([some [pA.appendNumber 1], some [pA.appendNumber 1], some [pA.appendNumber 1]], [(pA, 2)]) := by
  decide +kernel

/-- The fields of a concrete sync Interest, computed. -/
def syncFieldsOf (cfg : Cfg) (c1 c2 c3 c4 : Component) : Option (Bloom × Table) :=
  match readNni c1.value, readNni c2.value with
  | some count, some fpp =>
    match Bloom.ofComponent cfg.libm cfg.extraSalt (count % 4294967296) (cfg.libm.ofThousandths fpp) c3,
      Table.initialize cfg.ibltCodec cfg.expected c4 with
    | .ok bf, .ok t => some (bf, t)
    | _, _ => none
  | _, _ => none

theorem syncFields_of {cfg : Cfg} {c1 c2 c3 c4 : Component} {bf : Bloom} {t : Table}
    (h : syncFieldsOf cfg c1 c2 c3 c4 = some (bf, t)) :
    SyncFields cfg (cfg.syncPrefix ++ [SYNC, c1, c2, c3, c4]) bf t := by
  unfold syncFieldsOf at h
  split at h
  · rename_i count fpp h1 h2
    split at h
    · rename_i b t' h3 h4
      simp only [Option.some.injEq, Prod.mk.injEq] at h
      obtain ⟨rfl, rfl⟩ := h
      exact ⟨c1, c2, c3, c4, count, fpp, rfl, h1, h2, h3, h4⟩
    · cases h
  · cases h

/-- The filter and the IBF of `allInterest`. -/
theorem allInterest_fields : ∃ bf, SyncFields sampleCfg allInterest.name bf (List.replicate 6 ⟨0, 0#32, 0#32⟩) ∧
    bf.contains pA = .ok true ∧ bf.contains pB = .ok true := by
  have key : ∃ bf t, syncFieldsOf sampleCfg ⟨8, [6]⟩ ⟨8, [1]⟩ ⟨8, List.replicate 11 0xff#8⟩ ⟨8, List.replicate 72 0⟩ = some (bf, t) ∧
      (t, (bf.contains pA).get?, (bf.contains pB).get?) = (List.replicate 6 ⟨0, 0#32, 0#32⟩, some true, some true) := by
    cases h : syncFieldsOf sampleCfg ⟨8, [6]⟩ ⟨8, [1]⟩ ⟨8, List.replicate 11 0xff#8⟩ ⟨8, List.replicate 72 0⟩ with
    | none => exact absurd (congrArg Option.isSome h) (by decide +kernel)
    | some x =>
      have : (syncFieldsOf sampleCfg ⟨8, [6]⟩ ⟨8, [1]⟩ ⟨8, List.replicate 11 0xff#8⟩ ⟨8, List.replicate 72 0⟩).map
          (fun x => (x.2, (x.1.contains pA).get?, (x.1.contains pB).get?))
          = some (List.replicate 6 ⟨0, 0#32, 0#32⟩, some true, some true) := by decide +kernel
      rw [h, Option.map_some, Option.some.injEq] at this
      exact ⟨x.1, x.2, rfl, this⟩
  obtain ⟨bf, t, h1, h2⟩ := key
  simp only [Prod.mk.injEq] at h2
  obtain ⟨rfl, h3, h4⟩ := h2
  obtain ⟨_, h5, rfl⟩ := Res.of_get? (f := id) (by simpa using h3)
  obtain ⟨_, h6, e⟩ := Res.of_get? (f := id) (by simpa using h4)
  exact ⟨bf, syncFields_of h1, h5, by rw [h6]; simpa using e⟩

theorem mem_dataOf {l : List Out} {d : Data} (h : d ∈ dataOf l) : Out.data d ∈ l := by
  induction l with
  | nil => simp [dataOf] at h
  | cons o l ih =>
    rw [show o :: l = [o] ++ l from rfl, dataOf_append, List.mem_append] at h
    rcases h with h | h
    · cases o <;> simp [dataOf] at h
      rw [h]; simp
    · exact List.mem_cons_of_mem _ (ih h)

set_option synthInstance.maxSize 1024 in
/-- C39 is false as stated: /a/1 is answered from the store although /a/2 has been published since. -/
theorem c39_false : ¬ Spec.PartRepliesCurrent := by
  intro h
  have key : ∃ s, partRun [.addUserNode pA, .publishName pA none, .recvInterest allInterest, .publishName pA none] = .ok s ∧
      (s.base.prefixes, (Part.step sampleCfg s (.recvInterest allInterest)).get?.map (fun s' : Part =>
        (decide (s'.log.take s.log.length = s.log), (dataOf (s'.log.drop s.log.length)).map (fun d =>
          (d.finalBlock, (StateMsg.wireDecode d.content).get?.map (·.content))))))
      = ([(pA, 2)], some (true, [(some ⟨50, [0]⟩, some [pA.appendNumber 1])])) := Res.of_get? (by decide +kernel)
  obtain ⟨s, h1, h2⟩ := key
  simp only [Prod.mk.injEq] at h2
  obtain ⟨h2, h3⟩ := h2
  obtain ⟨s', h4, h5⟩ := Res.of_get? h3
  simp only [Prod.mk.injEq, decide_eq_true_eq] at h5
  obtain ⟨h5, h6⟩ := h5
  have hlog : s'.log = s.log ++ s'.log.drop s.log.length := by
    conv_lhs => rw [← List.take_append_drop s.log.length s'.log, h5]
  obtain ⟨bf, hbf, _⟩ := allInterest_fields
  generalize s'.log.drop s.log.length = ext at *
  cases hd : dataOf ext with
  | nil => rw [hd] at h6; simp at h6
  | cons d ds =>
    rw [hd] at h6
    simp only [List.map_cons, List.cons.injEq, Prod.mk.injEq] at h6
    obtain ⟨⟨h7, h8⟩, _⟩ := h6
    obtain ⟨st, h9, h10⟩ := Res.of_get? h8
    have hmem : Out.data d ∈ ext := mem_dataOf (by rw [hd]; simp)
    have := (h sampleCfg sampleCfg_wf s s' ⟨_, h1⟩ allInterest bf _ hbf h4 ext d hlog hmem h7 st h9 (pA.appendNumber 1)
      (by rw [h10]; simp)).1
    rw [show s.base.getSeqNo = NMap.find [(pA, 2)] by funext p; rw [Base.getSeqNo, h2]] at this
    have := (isLive_single (by decide) _).mp this
    exact absurd this (by decide)

set_option synthInstance.maxSize 1024 in
/-- Non-vacuity for C39 and C40: /a/3 and /b (never published) are registered; the Interest of a consumer that
knows nothing is answered with /a/3.  The hypotheses of C40 hold with the initial state for `r`
(`noCollisions_single`). -/
example : (partRun [.addUserNode pA, .addUserNode pB, .publishName pA (some 3)]).get?.bind (fun s =>
    (Part.step sampleCfg s (.recvInterest allInterest)).get?.map (fun s' : Part =>
      (checkHist s.base.hist, s.pub.replyFromStore allInterest.name, (dataOf s'.log).map (fun d =>
        (StateMsg.wireDecode d.content).get?.map (·.content)))))
    = some (true, none, [some [pA.appendNumber 3]]) := by decide +kernel

set_option synthInstance.maxSize 1024 in
/-- Non-vacuity for C77 and the last part of C40: the Interest of a consumer that knows nothing and has subscribed to
nothing is parked if /a is published (a difference of 1) and is answered at once with an empty list if /b is
published as well (2, half the capacity). -/
example : (partRun [.addUserNode pA, .addUserNode pB, .publishName pA none]).get?.bind (fun s =>
    (Part.step sampleCfg s (.recvInterest noneInterest)).get?.bind (fun s1 : Part =>
    (Part.step sampleCfg s (.publishName pB none)).get?.bind (fun s2 : Part =>
    (Part.step sampleCfg s2 (.recvInterest noneInterest)).get?.map (fun s3 : Part =>
      (s.pub.replyFromStore noneInterest.name, s1.pending.map (fun e => (e.1, e.2.timer)), dataOf s1.log, s3.pending,
        (dataOf s3.log).map (fun d => (StateMsg.wireDecode d.content).get?.map (·.content)))))))
    = some (none, [(noneInterest.name, some 1000)], [], [], [some []]) := by decide +kernel

/-- Non-vacuity for C41: an Interest whose IBF is no IBF of any small set is answered with a nack. -/
example : (partRun [.addUserNode pA, .publishName pA none]).get?.bind (fun s =>
    (Part.step sampleCfg s (.recvInterest { allInterest with name := nameOf [115] ++
      [SYNC, ⟨8, [6]⟩, ⟨8, [1]⟩, ⟨8, List.replicate 11 0xff#8⟩, ⟨8, List.replicate 72 1⟩] })).get?.map (fun s' : Part =>
      (dataOf s'.log).map (fun d => d.contentType))) = some [.nack] := by decide +kernel

set_option synthInstance.maxSize 1024 in
/-- Non-vacuity for C42: two Interests are parked.  Publishing /a answers the one whose filter has /a, the
other stays; publishing /b makes the difference 2, half the capacity, and the other is answered with nothing. -/
example : (partRun [.addUserNode pA, .addUserNode pB, .recvInterest allInterest, .recvInterest noneInterest]).get?.bind (fun s =>
    (Part.step sampleCfg s (.publishName pA none)).get?.bind (fun s' : Part =>
      (Part.step sampleCfg s' (.publishName pB none)).get?.map (fun s'' : Part =>
      (s.pending.length, s'.pending.keys, s''.pending.keys, (dataOf s''.log).map (fun d =>
        (StateMsg.wireDecode d.content).get?.map (·.content))))))
    = some (2, [noneInterest.name], [], [some [pA.appendNumber 1], some []]) := by decide +kernel

/-- `noneInterest` as a request for a segment, with a lifetime of 10 ms. -/
def segInterest : Interest := ⟨noneInterest.name ++ [⟨54, [1]⟩, ⟨50, [0]⟩], 10, 1⟩

/-- It is parked, its timer runs after 10 ms, and 40 more milliseconds pass. -/
def segOps : List Part.Op := [.recvInterest segInterest, .tick 10, .expire noneInterest.name, .tick 50]

set_option synthInstance.maxSize 1024 in
/-- C43 is false as stated: an Interest with a version and a segment number is parked under its first
components, and its timer erases the full name, which is not there: the entry stays (until a publication
answers it or the difference cannot be decoded), without a timer. -/
theorem c43_false : ¬ Spec.PartParkedAlive := by
  intro h
  have key : ∃ s, partRun segOps = .ok s ∧ (s.now, s.pending.map (fun e => (e.1, e.2.timer)))
      = (50, [(noneInterest.name, none)]) := Res.of_get? (by decide +kernel)
  obtain ⟨s, h1, h2⟩ := key
  simp only [Prod.mk.injEq] at h2
  obtain ⟨pre, i, post, s1, h4, h5, h6, h7⟩ := h sampleCfg sampleCfg_wf s segOps h1 noneInterest.name (by
    have : s.pending.keys = [noneInterest.name] := by
      have := congrArg (List.map Prod.fst) h2.2
      rw [List.map_map] at this
      exact this
    rw [this]; simp)
  unfold segOps at h4
  cases pre with
  | nil =>
    simp only [List.nil_append, List.cons.injEq, Part.Op.recvInterest.injEq] at h4
    simp only [Part.run, foldRes, Res.ok.injEq] at h5
    rw [← h5, ← h4.1, h2.1] at h7
    have hl : sampleCfg.lag = 0 := rfl
    simp only [segInterest, Part.init] at h7
    omega
  | cons a pre =>
    cases pre with
    | nil => simp at h4
    | cons b pre =>
      cases pre with
      | nil => simp at h4
      | cons c pre =>
        cases pre with
        | nil => simp at h4
        | cons d pre => simp at h4

/-- Non-vacuity for C43: an Interest received at 0 and again at 100 is parked until 1100 and then dropped. -/
example : (partRun [.recvInterest noneInterest, .tick 100, .recvInterest noneInterest]).get?.bind (fun s =>
    (Part.run sampleCfg s [.tick 1101, .tick 1100, .expire noneInterest.name]).get?.map (fun s' : Part =>
      (s.pending.map (fun e => (e.1, e.2.timer)), s'.now, s'.pending.length)))
    = some ([(noneInterest.name, some 1100)], 1100, 0) := by decide +kernel

/-- Non-vacuity for C44: /a/2 and /b/0 are listed. -/
example : (partRun [.addUserNode pA, .addUserNode pB, .publishName pA (some 2),
      .recvInterest ⟨nameOf [115] ++ [HELLO], 1000, 1⟩]).get?.map (fun s =>
      (dataOf s.log).map (fun d => (StateMsg.wireDecode d.content).get?.map (·.content)))
    = some [some [pA.appendNumber 2, pB.appendNumber 0]] := by decide +kernel

end PSync
