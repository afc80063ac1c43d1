import Verif.Props.FullAnswer
/-!
Properties C36 and C37.
-/
namespace PSync
open Spec

/-! ### C36 -/

/-- The full claim C36: an application nack sent on receiving an Interest satisfies it. -/
def Spec.NacksMatch : Prop :=
  ∀ cfg : Cfg, cfg.WF → ∀ i : Interest,
    (∀ s s' : Full, Full.Reach cfg s → Full.step cfg s (.recvInterest i) = .ok s' →
      ∀ ext d, s'.log = s.log ++ ext → Out.data d ∈ ext → d.contentType = .nack → i.name <+: d.name) ∧
    (∀ s s' : Part, Part.Reach cfg s → Part.step cfg s (.recvInterest i) = .ok s' →
      ∀ ext d, s'.log = s.log ++ ext → Out.data d ∈ ext → d.contentType = .nack → i.name <+: d.name)

theorem publish_blob {limit now v : Nat} {p : SegPub} {iname dname : Name} {buf : Bytes} {fr : Nat}
    {r : SegPub × List Data} (h : p.publish limit now v iname dname buf fr = .ok r) :
    ∀ d ∈ r.2, d.contentType = .blob := fun d hd =>
  ((segmentData_spec (dname.appendVersion v) buf fr).fresh d (publish_data_mem h hd)).2

theorem ext_of {l ext : List Out} {o : Out} (h : l ++ [o] = l ++ ext) : ext = [o] := (List.append_cancel_left h).symm

/-- C36, partial: a nack sent by a partial producer to an Interest with four components after
/sync (the form the consumer uses) satisfies it.  (Missing: Interests with a version and a segment
number appended, and full sync; see `c36_false` and `c36_full_never`.) -/
theorem c36_nack_matches_partial (cfg : Cfg) (s s' : Part) (i : Interest)
    (hn : (i.name.drop (cfg.syncPrefix.length + 1)).length = 4)
    (h : Part.step cfg s (.recvInterest i) = .ok s') (ext : List Out) (d : Data) (he : s'.log = s.log ++ ext)
    (hd : Out.data d ∈ ext) (hk : d.contentType = .nack) : i.name <+: d.name := by
  have found : ∀ d', s.pub.replyFromStore i.name = some d' → s' = s.emit (.data d') → i.name <+: d.name := by
    rintro d' h1 rfl
    rw [ext_of he, List.mem_singleton, Out.data.injEq] at hd
    subst hd
    exact List.isPrefixOf_iff_prefix.mp (storeFind_some h1).2.1
  have same : s' = s → i.name <+: d.name := by
    rintro rfl
    rw [List.self_eq_append_right] at he
    rw [he] at hd
    simp at hd
  have pub : ∀ dname buf fr, Part.publish cfg s i.name dname buf fr = .ok s' → i.name <+: d.name := by
    intro dname buf fr h1
    obtain ⟨r, hr, rfl⟩ := Part.publish_ok h1
    rw [← List.append_cancel_left he] at hd
    obtain ⟨d', hd', e⟩ := List.mem_map.mp hd
    cases e
    rw [publish_blob hr d hd'] at hk
    cases hk
  simp only [Part.step] at h
  split at h
  · unfold Part.onHelloInterest at h
    cases hst : s.pub.replyFromStore i.name with
    | some d' => rw [hst] at h; exact found d' hst (by cases h; rfl)
    | none =>
      simp only [hst, Res.bind_eq_ok] at h
      obtain ⟨_, _, _, _, h⟩ := h
      split at h
      · exact same (by cases h; rfl)
      · simp only [Res.bind_eq_ok] at h
        obtain ⟨c, _, h⟩ := h
        exact pub _ _ _ h
  · split at h
    · rcases Part.onSyncInterest_cases h with ⟨d', h1, h2⟩ | ⟨_, h1 | ⟨n, _, _, _, _, bf, ib, hn', _, _, _, h1⟩⟩
      · exact found d' h1 h2
      · exact same h1
      · have hn' : n = i.name := by
          rcases hn' with ⟨_, h⟩ | ⟨h, _⟩
          · exact h
          · omega
        subst hn'
        unfold Part.onSyncParsed at h1
        simp only [Res.bind_eq_ok] at h1
        obtain ⟨df, _, h1⟩ := h1
        split at h1
        · simp only [Res.bind_eq_ok, Res.ok.injEq, nackData] at h1
          obtain ⟨d', ⟨c, _, h2⟩, rfl⟩ := h1
          rw [ext_of he, List.mem_singleton, Out.data.injEq] at hd
          subst hd
          subst h2
          simp [Name.appendSegment, List.append_assoc]
        · simp only [Res.bind_eq_ok] at h1
          obtain ⟨cn, _, h1⟩ := h1
          split at h1
          · simp only [Res.bind_eq_ok] at h1
            obtain ⟨c, _, h1⟩ := h1
            exact pub _ _ _ h1
          · cases h1
            exfalso
            have he' : s.log = s.log ++ ext := he
            rw [List.self_eq_append_right] at he'
            rw [he'] at hd
            simp at hd
    · exact same (by cases h; rfl)

/-- C36: a nack of a full producer never satisfies the Interest it answers (unless a nack was put in the
store): the Interest has four components after the sync prefix, the nack two. -/
theorem c36_full_never (cfg : Cfg) (s s' : Full) (hs : Full.Reach cfg s) (i : Interest)
    (hst : s.pub.replyFromStore i.name = none)
    (h : Full.step cfg s (.recvInterest i) = .ok s') (ext : List Out) (d : Data) (he : s'.log = s.log ++ ext)
    (hd : Out.data d ∈ ext) (hk : d.contentType = .nack) : ¬ i.name <+: d.name := by
  have same : s'.log = s.log → False := by
    intro h1
    rw [h1, List.self_eq_append_right] at he
    rw [he] at hd
    simp at hd
  have own : ∀ is, Full.OwnInterest cfg s.base is → Out.data d ∉ is := by
    rintro is (rfl | ⟨n, _, rfl⟩) hd <;> simp at hd
  have rep : ∀ content fr, Full.Replied cfg s s' i.name content fr → False := by
    rintro content fr ⟨buf, r, is, h1, h2, h3, h4, h5, _⟩
    rw [h4, List.append_assoc] at he
    rw [← List.append_cancel_left he] at hd
    rcases List.mem_append.mp hd with h | h
    · obtain ⟨d', hd', e⟩ := List.mem_map.mp h
      cases e
      rw [publish_blob h2 d hd'] at hk
      cases hk
    · exact own is h5 h
  simp only [Full.step] at h
  split at h
  · rcases Full.onSyncInterest_cases h with ⟨d', h1, _⟩ | ⟨_, ⟨d', h1, h2, rfl⟩ | rfl | ⟨c2, c1, num, ib, df, _, _, _, _, _, _, h1⟩⟩
    · rw [hst] at h1; cases h1
    · intro hp
      rw [ext_of he, List.mem_singleton, Out.data.injEq] at hd
      subst hd
      unfold nackData at h2
      simp only [Res.bind_eq_ok, Res.ok.injEq] at h2
      obtain ⟨c, _, rfl⟩ := h2
      have h3 := hp.length_le
      simp only [Name.appendSegment, List.length_append, List.length_cons, List.length_nil] at h3
      rw [List.length_drop] at h1
      omega
    · exact (same rfl).elim
    · rcases h1 with ⟨_, h1⟩ | ⟨_, h1⟩
      · rcases Full.onUndecodable_reply h1 with ⟨_, is, h2, h3⟩ | ⟨h2, _⟩
        · rw [h2] at he
          rw [← List.append_cancel_left he] at hd
          exact (own is h3 hd).elim
        · exact (rep _ _ h2).elim
      · rcases (Full.onDecoded_reply (Full.reach_inv hs) h1).2 with ⟨_, h2⟩ | ⟨_, h2, _⟩
        · exact (same h2).elim
        · exact (rep _ _ h2).elim
  · cases h; exact (same rfl).elim

/-- The empty IBF and a count, then a version and a segment number. -/
def versionedInterest : Interest :=
  ⟨nameOf [115] ++ [⟨8, List.replicate 72 0⟩, ⟨8, [0]⟩, ⟨54, [1]⟩, ⟨50, [1]⟩], 1000, 4⟩

set_option synthInstance.maxSize 1024 in
theorem versioned_nack : ∃ s s' d, Full.Reach sampleCfg s ∧
    Full.step sampleCfg s (.recvInterest versionedInterest) = .ok s' ∧ s'.log = s.log ++ [.data d] ∧
    d.contentType = .nack ∧ d.name = nameOf [115] ++ [⟨8, List.replicate 72 0⟩, ⟨50, [0]⟩] ∧
    s.pub.replyFromStore versionedInterest.name = none := by
  have key : ∃ s, Full.init sampleCfg = .ok s ∧
      (s.pub.replyFromStore versionedInterest.name, (Full.step sampleCfg s (.recvInterest versionedInterest)).get?.map (fun s' : Full =>
        decide (s'.log = s.log ++ [.data ⟨nameOf [115] ++ [⟨8, List.replicate 72 0⟩, ⟨50, [0]⟩], .nack, [], 1000, some ⟨50, [0]⟩⟩])))
      = (none, some true) := Res.of_get? (by decide +kernel)
  obtain ⟨s, h1, h2⟩ := key
  simp only [Prod.mk.injEq] at h2
  obtain ⟨s', h3, h4⟩ := Res.of_get? h2.2
  exact ⟨s, s', _, ⟨s, [], h1, rfl⟩, h3, of_decide_eq_true h4, rfl, rfl, h2.1⟩

/-- C36 is false: a segment of an unknown version is answered by a full producer with a nack that does not
satisfy the Interest.  (The theorem above covers every such nack; its hypotheses are met here.) -/
theorem c36_false : ¬ Spec.NacksMatch := by
  intro h
  obtain ⟨s, s', d, hs, h1, h2, h3, h4, h5⟩ := versioned_nack
  exact c36_full_never sampleCfg s s' hs versionedInterest h5 h1 _ d h2 (List.mem_singleton.mpr rfl) h3
    ((h sampleCfg sampleCfg_wf versionedInterest).1 s s' hs h1 _ d h2 (List.mem_singleton.mpr rfl) h3)

/-! ### C37 -/

/-- The full claim C37, for replies of one packet. -/
def Spec.NeverStale : Prop :=
  ∀ cfg : Cfg, cfg.WF → ∀ (s s' : Full), Full.Reach cfg s → ∀ p seq, Full.publishName cfg s p seq = .ok s' →
    ∀ ext d, s'.log = s.log ++ ext → Out.data d ∈ ext → d.finalBlock = some ⟨50, [0]⟩ →
    ∀ q x, Name.appendNumber q x ∈ namesIn cfg d.content → x ≠ 0 ∧ ∀ y, s'.base.getSeqNo q = some y → y ≤ x

theorem newSeq_advances {seq : Option Nat} {cur : Nat} (h : Advances seq cur) : cur < Full.newSeq seq cur := by
  unfold Advances at h
  unfold Full.newSeq
  cases seq with
  | none => simp only at h ⊢; rw [Nat.mod_eq_of_lt (show _ < U64 from h)]; omega
  | some x => simp only at h ⊢; rw [Nat.mod_eq_of_lt (show _ < U64 from h.2)]; exact h.1

/-- C37, partial, for full sync: if the publication raises the number, every Data sent by publishName
belongs to a reply that only contains current publications.  (Missing: publications with a number that is
not above the current one, `c37_false`.) -/
theorem c37_full_partial (cfg : Cfg) (hwf : cfg.WF) (s s' : Full) (hs : Full.Reach cfg s) (p : Name) (seq : Option Nat)
    (hq : ∀ cur, s.base.getSeqNo p = some cur → Advances seq cur) (h : Full.publishName cfg s p seq = .ok s') :
    ∃ ext, s'.log = s.log ++ ext ∧ ∀ d, Out.data d ∈ ext → ∃ name content, PartOfReply cfg name content d ∧
      ∀ n ∈ content, IsLive s'.base.getSeqNo n := by
  have hsi := Full.reach_inv hs
  unfold Full.publishName at h
  cases hp : s.base.prefixes.find p with
  | none =>
    simp only [hp, Res.ok.injEq] at h
    subst h
    exact ⟨[], by simp, by simp⟩
  | some cur =>
    simp only [hp, Res.bind_eq_ok] at h
    obtain ⟨b, h1, h2⟩ := h
    have hadv := newSeq_advances (hq cur hp)
    have hst : Base.Steps (fun _ => True) s.base b := Relation.ReflTransGen.single (.update p _ (Full.newSeq_lt _ _) h1)
    have hb : b.Inv := hst.inv hsi
    have hu : IsLive b.getSeqNo (Name.appendNumber p (Full.newSeq seq cur)) := by
      refine ⟨p, _, ?_, by omega, rfl⟩
      rw [Base.getSeqNo, Base.find_updateSeqNo h1, if_pos rfl, hp, Option.map_some]
      congr 1; omega
    have := foldRes_rel (Q := fun a a' : Full => a.base = b → a'.base = b ∧ ∃ ext, a'.log = a.log ++ ext ∧
        ∀ d, Out.data d ∈ ext → ∃ name content, PartOfReply cfg name content d ∧ ∀ n ∈ content, IsLive b.getSeqNo n)
      (fun a ha => ⟨ha, [], by simp, by simp⟩)
      (fun a a' a'' h1 h2 ha => by
        obtain ⟨e1, x1, e2, e3⟩ := h1 ha
        obtain ⟨f1, x2, f2, f3⟩ := h2 e1
        refine ⟨f1, x1 ++ x2, by rw [f2, e2, List.append_assoc], fun d hd => ?_⟩
        rcases List.mem_append.mp hd with hd | hd
        · exact e3 d hd
        · exact f3 d hd) _
      (fun a e a' _ he ha => by
        unfold Full.satisfyOne at he
        simp only [Res.bind_eq_ok, Res.ok.injEq] at he
        obtain ⟨df, _, s1, h1, rfl⟩ := he
        refine ⟨(Full.sendSyncData_core h1).base.trans ha, ?_⟩
        obtain ⟨buf, r, is, h2, h3, h4, h5, h6, _⟩ := Full.sendSyncData_replied h1
        refine ⟨_, by show s1.log = _; rw [h5, List.append_assoc], fun d hd => ?_⟩
        rcases List.mem_append.mp hd with hd | hd
        · obtain ⟨d', hd', e⟩ := List.mem_map.mp hd
          cases e
          refine ⟨_, Full.satisfyContent a.base df.positive (Name.appendNumber p (Full.newSeq seq cur)),
            ⟨_, buf, _, _, segmentData_spec _ _ _, publish_data_mem h3 hd', ?_⟩, fun n hn => ?_⟩
          · obtain ⟨y, e1, e2⟩ := hwf.content_lossless
              (encodeNames (Full.satisfyContent a.base df.positive (Name.appendNumber p (Full.newSeq seq cur))))
            rw [h2, Option.some.injEq] at e1
            rw [e1]; exact e2
          · have found : ∀ n ∈ df.positive.filterMap a.base.biMap.findLeft, IsLive b.getSeqNo n := by
              intro n hn
              obtain ⟨k, _, hk⟩ := List.mem_filterMap.mp hn
              have := BiMap.findLeft_some hk
              rw [ha] at this
              exact (hb.bm _ _ this).2
            unfold Full.satisfyContent at hn
            simp only at hn
            split at hn
            · exact found n hn
            · rcases List.mem_append.mp hn with hn | hn
              · exact found n hn
              · rw [List.mem_singleton] at hn
                rw [hn]; exact hu
        · rcases h6 with rfl | ⟨n, _, rfl⟩ <;> simp at hd) h2
    obtain ⟨e1, ext, e2, e3⟩ := this rfl
    rw [e1]
    exact ⟨ext, e2, e3⟩

/-- The Interest of a node that knows /a/5. -/
def a5Interest : Interest :=
  ⟨((Res.bind (Full.init sampleCfg) fun s => Res.bind (Full.run sampleCfg s
    [.call (.addUserNode pA), .call (.publishName pA (some 5))]) fun s => Full.syncName sampleCfg s.base).get?).getD [], 1000, 5⟩

/-- /a/5 is published, then a node that also has it asks for news. -/
def staleAnnOps : List Full.Op := [.call (.addUserNode pA), .call (.publishName pA (some 5)), .recvInterest a5Interest]

set_option synthInstance.maxSize 1024 in
/-- C37 is false: publishName(/a, 3) after /a/5 changes nothing but announces /a/3 to the parked Interest. -/
theorem c37_false : ¬ Spec.NeverStale := by
  intro h
  have key : ∃ s, (Res.bind (Full.init sampleCfg) fun s => Full.run sampleCfg s staleAnnOps) = .ok s ∧
      (Full.publishName sampleCfg s pA (some 3)).get?.map (fun s' : Full =>
        (s'.base.getSeqNo pA, decide (s'.log.take s.log.length = s.log),
         (s'.log.drop s.log.length).map (fun o => match o with
           | .data d => some (d.finalBlock, namesIn sampleCfg d.content)
           | _ => none)))
      = some (some 5, true, [some (some ⟨50, [0]⟩, [Name.appendNumber pA 3])]) := Res.of_get? (by decide +kernel)
  obtain ⟨s, h1, h2⟩ := key
  obtain ⟨s', h3, h4⟩ := Res.of_get? h2
  simp only [Prod.mk.injEq, decide_eq_true_eq] at h4
  obtain ⟨e1, e2, e3⟩ := h4
  have hlog : s'.log = s.log ++ s'.log.drop s.log.length := by
    conv_lhs => rw [← List.take_append_drop s.log.length s'.log, e2]
  generalize s'.log.drop s.log.length = x at e3 hlog
  obtain ⟨o, rfl⟩ := List.length_eq_one_iff.mp (by simpa using congrArg List.length e3)
  simp only [List.map_cons, List.map_nil, List.cons.injEq, and_true] at e3
  cases o with
  | data d =>
    simp only [Option.some.injEq, Prod.mk.injEq] at e3
    rw [Res.bind_eq_ok] at h1
    obtain ⟨s0, h0, h1⟩ := h1
    have := (h sampleCfg sampleCfg_wf s s' ⟨s0, _, h0, h1⟩ pA (some 3) h3 _ d hlog (List.mem_singleton.mpr rfl) e3.1
      pA 3 (by rw [e3.2]; simp)).2 5 e1
    omega
  | _ => simp at e3

/-- Non-vacuity for C37: the same state, publishing /a/6. -/
example : (Res.bind (Full.init sampleCfg) fun s => Full.run sampleCfg s staleAnnOps).get?.bind (fun s =>
      (Full.publishName sampleCfg s pA none).get?.map (fun s' : Full => (s.base.getSeqNo pA, s.pending.length,
        (s'.log.drop s.log.length).map (fun o => match o with
           | .data d => namesIn sampleCfg d.content
           | _ => []))))
      = some (some 5, 1, [[Name.appendNumber pA 6]]) := by decide +kernel

end PSync
