import Verif.Props.Memory
import Verif.Props.Restart
/-!
Property C109: a removed prefix stays removed.
-/
namespace PSync
open Spec

/-- The prefixes an event tells of, listed. -/
def Full.toldBy (cfg : Cfg) : Full.Op → List Name
  | .call (.addUserNode p) => [p]
  | .complete buf acts =>
    acts.filterMap (fun c => match c with | .addUserNode p => some p | _ => none) ++
      ((namesIn cfg buf).filterMap announced).map Prod.fst
  | _ => []

theorem Full.mem_toldBy {cfg : Cfg} {op : Full.Op} {p : Name} : p ∈ Full.toldBy cfg op ↔ TellsFull cfg op p := by
  unfold TellsFull
  constructor
  · intro h
    unfold Full.toldBy at h
    split at h
    · simp only [List.mem_singleton] at h
      subst h
      exact .inl rfl
    · rename_i buf acts
      rw [List.mem_append] at h
      refine .inr ⟨buf, acts, rfl, ?_⟩
      rcases h with h | h
      · rw [List.mem_filterMap] at h
        obtain ⟨c, h1, h2⟩ := h
        cases c with
        | addUserNode q => simp only [Option.some.injEq] at h2; subst h2; exact .inl h1
        | _ => cases h2
      · rw [List.mem_map] at h
        obtain ⟨⟨p', q⟩, h1, rfl⟩ := h
        rw [List.mem_filterMap] at h1
        obtain ⟨n, h1, h2⟩ := h1
        right
        rw [Full.namesIn_eq] at h1
        unfold Full.decodeReply at h1
        split at h1
        · simp at h1
        · rename_i raw hraw
          split at h1
          · rename_i st hst
            exact ⟨raw, st, n, q, hraw, hst, h1, h2⟩
          · simp at h1
    · cases h
  · rintro (rfl | ⟨buf, acts, rfl, h | ⟨raw, st, n, q, h1, h2, h3, h4⟩⟩)
    · exact List.mem_singleton.mpr rfl
    · exact List.mem_append_left _ (List.mem_filterMap.mpr ⟨_, h, rfl⟩)
    · refine List.mem_append_right _ (List.mem_map.mpr ⟨(p, q), List.mem_filterMap.mpr ⟨n, ?_, h4⟩, rfl⟩)
      rw [Full.namesIn_eq]
      unfold Full.decodeReply
      rw [h1]
      simp only [h2]
      exact h3

theorem Full.step_absent {cfg : Cfg} {s s' : Full} {op : Full.Op} {p : Name} (hi : s.base.Inv) (hp : s.base.getSeqNo p = none)
    (ht : ¬ TellsFull cfg op p) (h : Full.step cfg s op = .ok s') : s'.base.getSeqNo p = none := by
  have hw := Full.within_step (L := s.base.prefixes.keys ++ Full.toldBy cfg op) hi
    (fun q x hq => List.mem_append_left _ (NMap.mem_keys.mpr (by rw [hq]; rfl)))
    (fun q hq => List.mem_append_right _ (Full.mem_toldBy.mpr hq)) h
  cases hc : s'.base.getSeqNo p with
  | none => rfl
  | some x =>
    rcases List.mem_append.mp (hw p x hc) with h1 | h1
    · rw [NMap.mem_keys] at h1
      rw [show s.base.prefixes.find p = none from hp] at h1
      cases h1
    · exact absurd (Full.mem_toldBy.mp h1) ht

/-- C109, partial, for full sync: a prefix the node does not have is still absent after any events none of which tells of it
(adds it or is a reply that announces it), and no publication of it has been reported.  (Missing: replies
of members that still have the prefix, `c109_false`.) -/
theorem c109_full_partial (cfg : Cfg) (s s' : Full) (hs : Full.Reach cfg s) (p : Name) (hp : s.base.getSeqNo p = none)
    (ops : List Full.Op) (ht : ∀ op ∈ ops, ¬ TellsFull cfg op p) (h : Full.run cfg s ops = .ok s') :
    s'.base.getSeqNo p = none ∧
    ((∀ op ∈ ops, ¬ op.Removes p) → ∃ ext, s'.log = s.log ++ ext ∧ ∀ k, ¬ Reported p k ext) := by
  have h1 : s'.base.getSeqNo p = none :=
    (foldRes_inv (P := fun s : Full => s.base.Inv ∧ s.base.getSeqNo p = none) ops
      (fun _ op _ hop hP hst => ⟨(Full.step_steps hst).inv hP.1, Full.step_absent hP.1 hP.2 (ht op hop) hst⟩)
      ⟨Full.reach_inv hs, hp⟩ h).2
  refine ⟨h1, fun hr => ?_⟩
  obtain ⟨ext, R, e1, e2, e3, _⟩ := c27_ranges_tile cfg s s' hs ops p hr h
  rw [hp, h1] at e2
  refine ⟨ext, e1, ?_⟩
  rintro k ⟨us, u, k1, k2, k3, k4⟩
  have hm : (u.lowSeq, u.highSeq) ∈ R.map Prod.snd := by
    have : (u.lowSeq, u.highSeq) ∈ notified p ext := mem_notified.mpr ⟨us, u, k1, k2, k3, rfl⟩
    rw [← e3] at this
    obtain ⟨r, hr, e⟩ := List.mem_map.mp this
    exact List.mem_map.mpr ⟨r, (List.mem_filter.mp hr).1, e⟩
  have h2 := c27_exactly_once e2 k
  rw [if_neg (by simp; omega), List.countP_eq_zero] at h2
  exact h2 _ hm (by simpa using k4)

/-- C109, partial, for full sync: a reply that brings the prefix back is reported from number 1 on, as if the node had
never had it. -/
theorem c109_again (cfg : Cfg) (s s' : Full) (hs : Full.Reach cfg s) (f : Fetcher) (hf : s.fetcher = some f)
    (ha : f.active = true) (p n : Name) (x : Nat) (hp : s.base.getSeqNo p = none) (buf : Bytes) (hn : n ∈ namesIn cfg buf)
    (hx : announced n = some (p, x)) (h : Full.step cfg s (.complete buf []) = .ok s') :
    (∃ y, s'.base.getSeqNo p = some y ∧ x ≤ y) ∧ ∃ ext, s'.log = s.log ++ ext ∧ ∀ k, 1 ≤ k → k ≤ x → Reported p k ext := by
  obtain ⟨ext, e1, e2⟩ := c108_full_reported cfg s s' hs f hf ha buf h p
  refine ⟨?_, ext, e1, fun k hk hk2 => (e2 k).mpr ⟨by rw [hp]; exact hk, x, n, hk2, hn, hx⟩⟩
  obtain ⟨ps, b, i1, i2, i3, _⟩ := c26_merge_max cfg s s' hs f hf ha buf [] h
  have hb := i2 p
  rw [← i3 rfl] at hb
  have hm : (p, x) ∈ ps := by
    have : some (p, x) ∈ (namesIn cfg buf).map announced := List.mem_map.mpr ⟨n, hn, hx⟩
    rw [i1] at this
    simpa using this
  cases hc : s'.base.getSeqNo p with
  | none => rw [hc] at hb; exact absurd hm (hb.2 x)
  | some w => rw [hc] at hb; exact ⟨w, rfl, hb.2.1 x hm⟩

/-- C109 for partial sync: a prefix the producer does not have is still absent after any events that do not add it, whatever
is published or received. -/
theorem c109_producer (cfg : Cfg) (s s' : Part) (p : Name) (hp : s.base.getSeqNo p = none)
    (ops : List Part.Op) (ht : Part.Op.addUserNode p ∉ ops) (h : Part.run cfg s ops = .ok s') :
    s'.base.getSeqNo p = none := by
  refine foldRes_inv (P := fun s : Part => s.base.getSeqNo p = none) ops (fun m op m' hop hP hst => ?_) hp h
  cases hc : m'.base.getSeqNo p with
  | none => rfl
  | some x =>
    rcases Part.step_registers hst hc with ⟨y, hy⟩ | rfl
    · rw [hP] at hy; cases hy
    · exact absurd hop ht

/-- The full claim C109: after removeUserNode, the prefix is absent until the application adds it again. -/
def Spec.StaysRemoved : Prop :=
  ∀ (cfg : Cfg) (s s1 s2 : Full) (p : Name) (ops : List Full.Op), Full.Reach cfg s →
    Full.step cfg s (.call (.removeUserNode p)) = .ok s1 →
    (∀ op ∈ ops, op ≠ .call (.addUserNode p) ∧ ∀ buf acts, op = .complete buf acts → Full.Call.addUserNode p ∉ acts) →
    Full.run cfg s1 ops = .ok s2 → s2.base.getSeqNo p = none

set_option maxRecDepth 100000 in
/-- C109 is false as stated: a reply of a member that still has /a brings it back. -/
theorem c109_false : ¬ Spec.StaysRemoved := by
  intro hall
  have k1 : ((Res.bind (Full.init sampleCfg) fun s => Full.run sampleCfg s [.call (.addUserNode pA), .call (.publishName pA (some 7))]).get?.bind
      fun s => (Full.step sampleCfg s (.call (.removeUserNode pA))).get?.bind
      fun s1 => (Full.run sampleCfg s1 [.complete (encodeNames [pA.appendNumber 7]) []]).get?.map
      fun s2 => (s.base.getSeqNo pA, s1.base.getSeqNo pA, s2.base.getSeqNo pA, notified pA s2.log)) =
      some (some 7, none, some 7, [(1, 7)]) := by decide +kernel
  cases h0 : (Res.bind (Full.init sampleCfg) fun s => Full.run sampleCfg s [.call (.addUserNode pA), .call (.publishName pA (some 7))]) with
  | ok s =>
    rw [h0] at k1
    simp only [Res.get?, Option.bind_some] at k1
    cases h1 : Full.step sampleCfg s (.call (.removeUserNode pA)) with
    | ok s1 =>
      rw [h1] at k1
      simp only [Option.bind_some] at k1
      cases h2 : Full.run sampleCfg s1 [.complete (encodeNames [pA.appendNumber 7]) []] with
      | ok s2 =>
        rw [h2] at k1
        simp only [Option.map_some, Option.some.injEq, Prod.mk.injEq] at k1
        rw [Res.bind_eq_ok] at h0
        obtain ⟨s0, i0, i1⟩ := h0
        have := hall sampleCfg s s1 s2 pA _ ⟨s0, _, i0, i1⟩ h1 (by
          intro op hop
          simp only [List.mem_singleton] at hop
          subst hop
          refine ⟨by simp, fun buf acts e => ?_⟩
          cases e
          simp) h2
        rw [this] at k1
        exact absurd k1.2.2.1 (by simp)
      | _ => rw [h2] at k1; cases k1
    | _ => rw [h1] at k1; cases k1
  | _ => rw [h0] at k1; cases k1

set_option maxRecDepth 100000 in
/-- Non-vacuity: replies and publications of other prefixes leave a removed prefix absent. -/
example : ((Res.bind (Full.init sampleCfg) fun s => Full.run sampleCfg s [.call (.addUserNode pA), .call (.addUserNode pB),
      .call (.publishName pA (some 7)), .call (.removeUserNode pA), .complete (encodeNames [pB.appendNumber 3]) [],
      .call (.publishName pA none), .call (.publishName pB none)]).get?.map
      fun s => (s.base.getSeqNo pA, s.base.getSeqNo pB, notified pA s.log)) = some (none, some 4, []) := by decide +kernel

end PSync
