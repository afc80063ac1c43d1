import Verif.Proofs.FullReply
/-!
Processing of received names: maximum, notifications.
-/
namespace PSync
open Spec

namespace Full

/-- One received name. -/
theorem merge_step_find {b b1 : Base} {p : Name} {q : Nat} (h : (b.addUserNode p).2.updateSeqNo p q = .ok b1) (r : Name) :
    b1.prefixes.find r = if p = r then some (max ((b.prefixes.find r).getD 0) q) else b.prefixes.find r := by
  rw [Base.find_updateSeqNo h, Base.find_addUserNode, Base.find_addUserNode]
  split
  · rename_i h1; subst h1; simp
  · rfl

theorem merge_best {face : Nat} (ns : List Name) : ∀ {b : Base} {acc : List MissingDataInfo}
    {r : List MissingDataInfo × Base}, merge face b ns acc = .ok r →
    ∃ ps, ns.map announced = ps.map some ∧ ∀ p, r.2.prefixes.find p = best p (b.prefixes.find p) ps := by
  induction ns with
  | nil => intro b acc r h; simp only [merge, Res.ok.injEq] at h; subst h; exact ⟨[], rfl, fun p => rfl⟩
  | cons n ns ih =>
    intro b acc r h
    unfold merge at h
    simp only [Res.bind_eq_ok] at h
    obtain ⟨c, hc, q, hq, h⟩ := h
    have ha := announced_of hc hq
    have hx := Base.index_eq b (Name.dropLast n 1)
    generalize b.index (Name.dropLast n 1) = x at h hx
    obtain ⟨cur, b1⟩ := x
    simp only at h hx
    split at h
    · simp only [Res.bind_eq_ok] at h
      obtain ⟨b2, h2, h3⟩ := h
      obtain ⟨ps, h4, h5⟩ := ih h3
      refine ⟨(Name.dropLast n 1, q) :: ps, by simp [ha.1, h4], fun p => ?_⟩
      rw [h5 p]
      rw [hx.2] at h2
      unfold best
      rw [List.foldl_cons, merge_step_find h2 p]
    · rename_i hnew
      obtain ⟨ps, h4, h5⟩ := ih h
      refine ⟨(Name.dropLast n 1, q) :: ps, by simp [ha.1, h4], fun p => ?_⟩
      rw [h5 p]
      unfold best
      rw [List.foldl_cons]
      congr 1
      simp only
      split
      · rename_i hp
        subst hp
        unfold isNewer at hnew
        cases hf : b.prefixes.find (Name.dropLast n 1) with
        | none => rw [hf] at hnew; simp at hnew
        | some cur => rw [hf] at hnew; simp at hnew; simp; omega
      · rfl

/-- Names that all carry a number can be merged, unless 2^30 changes were made before. -/
theorem merge_total {e : Nat} (he : 0 < e) {face : Nat} (ns : List Name) : ∀ {b : Base} (acc : List MissingDataInfo),
    b.Small e → b.hist.length + ns.length < 1073741823 → (∀ n ∈ ns, (announced n).isSome) →
    ∃ r, merge face b ns acc = .ok r := by
  induction ns with
  | nil => intro b acc _ _ _; exact ⟨_, rfl⟩
  | cons n ns ih =>
    intro b acc hs hh hn
    obtain ⟨⟨p, q⟩, ha⟩ := Option.isSome_iff_exists.mp (hn n (by simp))
    obtain ⟨c, hc, hq, hp⟩ := of_announced ha
    unfold merge
    simp only [hc, hq, Res.ok_bind]
    have hx := Base.index_eq b (Name.dropLast n 1)
    generalize b.index (Name.dropLast n 1) = x at hx
    obtain ⟨cur, b1⟩ := x
    simp only at hx ⊢
    have hrest : ∀ m ∈ ns, (announced m).isSome := fun m hm => hn m (List.mem_cons_of_mem _ hm)
    simp only [List.length_cons] at hh
    split
    · have hs1 : b1.Small e := by
        rw [hx.2]; exact Base.Step.small (R := fun _ => True) he (.add _) hs
      have hh1 : b1.hist = b.hist := by rw [hx.2, Base.addUserNode_hist]
      obtain ⟨b2, h2⟩ := Base.update_total he hs1 (by rw [hh1]; omega) (Name.dropLast n 1) q
      have hlt := (announced_of hc hq).2
      have hs2 : b2.Small e := Base.Step.small (R := fun _ => True) he (.update _ q hlt h2) hs1
      have hh2 : b2.hist.length ≤ b1.hist.length + 1 := by
        rcases Base.updateSeqNo_ok h2 with ⟨rfl, _⟩ | ⟨s, _, _, _, _, _, _, _, _, _, rfl⟩
        · omega
        · simp
      rw [h2, Res.ok_bind]
      exact ih _ hs2 (by rw [hh1] at hh2; omega) hrest
    · exact ih acc hs (by omega) hrest

/-- The table right after the names of a reply are merged; afterwards only calls of the application
change it. -/
theorem onSyncData_cases {cfg : Cfg} {s s' : Full} (hs : s.base.Inv) {n : Name} {buf : Bytes} {acts : List Call}
    (h : onSyncData cfg s n buf acts = .ok s') :
    (decodeReply cfg buf = none ∧ s' = s.deletePending n) ∨
    ∃ ns r, decodeReply cfg buf = some ns ∧ merge s.incomingFace s.base ns [] = .ok r ∧ r.2.Inv ∧
      ((r.1 = [] ∧ r.2 = s.base ∧ s' = { s.deletePending n with
          waitOut := true
          sched := some (s.now + (cfg.freshness + cfg.jitter s.draws), .waitOut)
          draws := s.draws + 1 }) ∨
       (r.1 ≠ [] ∧ ∃ s1, foldRes (call cfg) (({ s.deletePending n with base := r.2 } : Full).emit (.update r.1)) acts = .ok s1 ∧
        s1.base.Inv ∧ s'.base = s1.base ∧
        processWaiting cfg { s1 with
          sched := some (s1.now + cfg.jitter s1.draws, .renew), draws := s1.draws + 1, waitOut := false } = .ok s')) := by
  unfold onSyncData at h
  simp only at h
  split at h
  · rename_i hd; cases h; exact Or.inl ⟨hd, rfl⟩
  · rename_i ns hd
    simp only [Res.bind_eq_ok] at h
    obtain ⟨r, h1, h2⟩ := h
    obtain ⟨us, hu, hm, _⟩ := merge_rel _ h1
    rw [List.nil_append] at hu
    have hinv : r.2.Inv := (hm.steps (R := fun _ => True)).inv hs
    right
    refine ⟨ns, r, hd, h1, hinv, ?_⟩
    split at h2
    · rename_i he
      rw [List.isEmpty_iff] at he
      rw [← hu, he] at hm
      have hb := MergeRel_nil hm
      cases h2
      refine Or.inl ⟨he, hb, ?_⟩
      simp only [hb]
      rfl
    · rename_i he
      simp only [Res.bind_eq_ok] at h2
      obtain ⟨s1, h3, h4⟩ := h2
      have hinv1 : s1.base.Inv := (calls_steps h3).inv hinv
      refine Or.inr ⟨by simpa using he, s1, h3, hinv1, ?_, h4⟩
      exact processWaiting_base (s := { s1 with
          sched := some (s1.now + cfg.jitter s1.draws, .renew), draws := s1.draws + 1, waitOut := false }) hinv1 h4

theorem namesIn_eq (cfg : Cfg) (buf : Bytes) : namesIn cfg buf = (decodeReply cfg buf).getD [] := by
  unfold namesIn decodeReply
  cases cfg.contentCodec.decompress buf with
  | none => rfl
  | some raw => simp only; cases StateMsg.wireDecode raw <;> rfl

/-- onSyncData without calls from the callback merges by maximum. -/
theorem onSyncData_best {cfg : Cfg} {s s' : Full} (hs : s.base.Inv) {n : Name} {buf : Bytes}
    (h : onSyncData cfg s n buf [] = .ok s') :
    ∃ ps, (namesIn cfg buf).map announced = ps.map some ∧
      ∀ p, s'.base.prefixes.find p = best p (s.base.prefixes.find p) ps := by
  rw [namesIn_eq]
  rcases onSyncData_cases hs h with ⟨h1, rfl⟩ | ⟨ns, r, h1, h2, _, h3⟩
  · rw [h1]; exact ⟨[], rfl, fun p => rfl⟩
  · rw [h1]
    obtain ⟨ps, h4, h5⟩ := merge_best _ h2
    refine ⟨ps, h4, fun p => ?_⟩
    rw [← h5 p]
    rcases h3 with ⟨_, hb, rfl⟩ | ⟨_, s1, h6, _, hb, _⟩
    · rw [hb]; rfl
    · rw [hb]
      simp only [foldRes, Res.ok.injEq] at h6
      subst h6; rfl

end Full

/-! The maximum does not depend on order or repetition. -/

theorem best_some (p : Name) (x : Nat) (ps : List (Name × Nat)) :
    ∃ y, best p (some x) ps = some y := by
  unfold best
  induction ps generalizing x with
  | nil => exact ⟨x, rfl⟩
  | cons e ps ih =>
    rw [List.foldl_cons]
    split
    · exact ih _
    · exact ih _

theorem best_append (p : Name) (old : Option Nat) (ps ps' : List (Name × Nat)) :
    best p old (ps ++ ps') = best p (best p old ps) ps' := by
  unfold best; rw [List.foldl_append]

/-- `best` is the least upper bound. -/
theorem best_le_iff (p : Name) (old : Option Nat) (ps : List (Name × Nat)) (y : Nat) :
    (∃ x, best p old ps = some x ∧ x ≤ y) ↔
      ((old.isSome ∨ ∃ q, (p, q) ∈ ps) ∧ old.getD 0 ≤ y ∧ ∀ q, (p, q) ∈ ps → q ≤ y) := by
  induction ps generalizing old with
  | nil =>
    unfold best
    cases old <;> simp
  | cons e ps ih =>
    obtain ⟨r, q⟩ := e
    have : best p old ((r, q) :: ps) = best p (if r = p then some (max (old.getD 0) q) else old) ps := rfl
    rw [this, ih]
    by_cases hr : r = p
    · subst hr
      simp only [if_true, Option.isSome_some, true_or, Option.getD_some, true_and, List.mem_cons, Prod.mk.injEq]
      constructor
      · rintro ⟨h1, h2⟩
        refine ⟨Or.inr ⟨q, Or.inl rfl⟩, by omega, ?_⟩
        rintro q' (rfl | h)
        · omega
        · exact h2 q' h
      · rintro ⟨_, h1, h2⟩
        refine ⟨?_, fun q' h => h2 q' (Or.inr h)⟩
        have := h2 q (Or.inl rfl)
        omega
    · have hr' : p ≠ r := fun h => hr h.symm
      simp [hr, hr']

theorem best_none_iff (p : Name) (old : Option Nat) (ps : List (Name × Nat)) :
    best p old ps = none ↔ old = none ∧ ∀ q, (p, q) ∉ ps := by
  induction ps generalizing old with
  | nil => simp [best]
  | cons e ps ih =>
    obtain ⟨r, q⟩ := e
    have : best p old ((r, q) :: ps) = best p (if r = p then some (max (old.getD 0) q) else old) ps := rfl
    rw [this, ih]
    by_cases hr : r = p
    · subst hr; simp
      exact fun _ => ⟨q, fun h => absurd rfl h⟩
    · have hr' : p ≠ r := fun h => hr h.symm
      simp [hr, hr']

theorem best_congr (p : Name) (old : Option Nat) {ps ps' : List (Name × Nat)} (h : ∀ e, e ∈ ps ↔ e ∈ ps') :
    best p old ps = best p old ps' := by
  have key : ∀ y, (∃ x, best p old ps = some x ∧ x ≤ y) ↔ (∃ x, best p old ps' = some x ∧ x ≤ y) := by
    intro y
    rw [best_le_iff, best_le_iff]
    simp only [h]
  cases h1 : best p old ps with
  | none =>
    rw [best_none_iff] at h1
    exact ((best_none_iff p old ps').mpr ⟨h1.1, fun q hq => h1.2 q ((h _).mpr hq)⟩).symm
  | some x =>
    obtain ⟨x', hx', hle⟩ := (key x).mp ⟨x, h1, le_rfl⟩
    obtain ⟨x'', hx'', hle'⟩ := (key x').mpr ⟨x', hx', le_rfl⟩
    rw [h1] at hx''
    cases hx''
    rw [hx']
    congr 1
    omega

end PSync
