import Verif.Proofs.MicroLog
import Verif.Spec.Sync
/-!
The ranges reported to the application follow each other.
-/
namespace PSync
open Spec

theorem notified_append (p : Name) (l l' : List Out) : notified p (l ++ l') = notified p l ++ notified p l' := by
  induction l with
  | nil => rfl
  | cons o l ih =>
    cases o <;> simp only [List.cons_append, notified, ih, List.append_assoc]

theorem notified_of_not_update (p : Name) (l : List Out) (h : ∀ us, Out.update us ∉ l) : notified p l = [] := by
  induction l with
  | nil => rfl
  | cons o l ih =>
    have ih := ih (fun us hu => h us (List.mem_cons_of_mem _ hu))
    cases o with
    | update us => exact absurd (List.mem_cons_self) (h us)
    | interest _ _ => exact ih
    | data _ => exact ih
    | hello _ => exact ih

theorem Spec.Tiles.snoc {a b : Nat} {l : List (Nat × Nat)} (h : Tiles a l b) {c : Nat} (hc : b ≤ c) :
    Tiles a (l ++ [(b + 1, c)]) c := by
  induction h with
  | nil a => exact .cons c [] hc (.nil c)
  | cons h l hle _ ih => exact .cons h _ hle (ih hc)

/-- The number known for `p`, zero if none. -/
abbrev seqOf (b : Base) (p : Name) : Nat := (b.prefixes.find p).getD 0

/-- Ranges since `n0`: those marked `true` were reported to the application in `l`, the others were
published locally. -/
def Tiled (p : Name) (L : Prop) (n0 : Nat) (b : Base) (l : List Out) : Prop :=
  ∃ R : List (Bool × Nat × Nat), Tiles n0 (R.map Prod.snd) (seqOf b p) ∧
    (R.filter Prod.fst).map Prod.snd = notified p l ∧ (L ∨ ∀ e ∈ R, e.1 = true)

theorem Tiled.quiet {p : Name} {L : Prop} {n0 : Nat} {b b' : Base} {l l' : List Out} (h : Tiled p L n0 b l)
    (hb : seqOf b' p = seqOf b p) (hl : ∀ us, Out.update us ∉ l') : Tiled p L n0 b' (l ++ l') := by
  obtain ⟨R, h1, h2, h3⟩ := h
  exact ⟨R, hb ▸ h1, by rw [notified_append, notified_of_not_update p l' hl, List.append_nil]; exact h2, h3⟩

theorem mergeRel_tiled {p : Name} {L : Prop} {n0 : Nat} {us : List MissingDataInfo} {b b' : Base} (h : MergeRel b us b') :
    ∀ (R : List (Bool × Nat × Nat)), b.Inv → Tiles n0 (R.map Prod.snd) (seqOf b p) → (L ∨ ∀ e ∈ R, e.1 = true) →
    ∃ R' : List (Bool × Nat × Nat), Tiles n0 (R'.map Prod.snd) (seqOf b' p) ∧
      (R'.filter Prod.fst).map Prod.snd = (R.filter Prod.fst).map Prod.snd
        ++ (us.filter (fun u => u.pfx = p)).map (fun u => (u.lowSeq, u.highSeq)) ∧
      (L ∨ ∀ e ∈ R', e.1 = true) := by
  induction h with
  | nil b => intro R _ hT hL; exact ⟨R, hT, by simp, hL⟩
  | @newer b b1 b2 us q x face hx hnew hup _ ih =>
    intro R hinv hT hL
    have hst : Base.Steps (fun _ => True) b b1 := (Relation.ReflTransGen.single (Base.Step.add q)).tail
      (Base.Step.update (R := fun _ => True) q x hx hup)
    have hinv1 : b1.Inv := hst.inv hinv
    have hseq : ∀ r, seqOf b1 r = if q = r then max (seqOf b r) x else seqOf b r := by
      intro r
      unfold seqOf
      rw [Base.find_updateSeqNo hup, Base.find_addUserNode, Base.find_addUserNode]
      split
      · rename_i h; subst h; simp
      · rfl
    by_cases hq : q = p
    · subst hq
      have hle : seqOf b q ≤ x := by
        unfold Full.isNewer at hnew
        unfold seqOf
        cases hp : b.prefixes.find q with
        | none => simp
        | some c => rw [hp] at hnew; simp at hnew ⊢; omega
      have h1 : seqOf b1 q = x := by rw [hseq, if_pos rfl]; omega
      have hmod : (seqOf b q + 1) % U64 = seqOf b q + 1 := by
        apply Nat.mod_eq_of_lt
        unfold Full.isNewer at hnew
        unfold seqOf
        cases hp : b.prefixes.find q with
        | none => decide
        | some c => rw [hp] at hnew; simp at hnew ⊢; omega
      obtain ⟨R', h2, h3, h4⟩ := ih (R ++ [(true, seqOf b q + 1, x)]) hinv1
        (by rw [List.map_append, h1]; exact hT.snoc hle)
        (hL.imp id (fun h e he => by
          rcases List.mem_append.mp he with he | he
          · exact h e he
          · rw [List.mem_singleton.mp he]))
      refine ⟨R', h2, ?_, h4⟩
      rw [h3, List.filter_append, List.map_append]
      simp [hmod]
    · have h1 : seqOf b1 p = seqOf b p := by rw [hseq, if_neg hq]
      obtain ⟨R', h2, h3, h4⟩ := ih R hinv1 (h1 ▸ hT) hL
      refine ⟨R', h2, ?_, h4⟩
      rw [h3]
      simp [hq]

theorem Micro.tiled {ρ : Rules} {p : Name} (hrem : ¬ ρ.remove p) {n0 : Nat} {lg : List Out} {v v' : View} (h : Micro ρ v v')
    (hv : v.base.Inv) (ht : ∃ l, v.log = lg ++ l ∧ Tiled p (∃ q, ρ.publish p q) n0 v.base l) :
    ∃ l, v'.log = lg ++ l ∧ Tiled p (∃ q, ρ.publish p q) n0 v'.base l := by
  obtain ⟨l, hl, hT⟩ := ht
  have same : ∀ b', seqOf b' p = seqOf v.base p → Tiled p (∃ q, ρ.publish p q) n0 b' l := by
    intro b' hb
    have := hT.quiet (l' := []) hb (by simp)
    rwa [List.append_nil] at this
  cases h with
  | add q =>
    refine ⟨l, hl, same _ ?_⟩
    unfold seqOf
    simp only [Base.find_addUserNode]
    split
    · rename_i h; subst h; simp
    · rfl
  | remove q b' hq h =>
    refine ⟨l, hl, same _ ?_⟩
    unfold seqOf
    simp only [(Base.removeUserNode_ok h).1, NMap.find_erase]
    rw [if_neg]
    rintro rfl
    exact hrem hq
  | publish q x b' hq hx _ h =>
    have hf : seqOf b' p = if q = p then ((v.base.prefixes.find q).map (fun s => max s x)).getD 0 else seqOf v.base p := by
      unfold seqOf
      rw [Base.find_updateSeqNo h]
      split <;> rfl
    by_cases hqp : q = p
    · subst hqp
      rw [if_pos rfl] at hf
      cases hp : v.base.prefixes.find q with
      | none => exact ⟨l, hl, same _ (by rw [hf]; simp [seqOf, hp])⟩
      | some c =>
        rw [hp] at hf
        obtain ⟨R, h1, h2, _⟩ := hT
        refine ⟨l, hl, R ++ [(false, c + 1, max c x)], ?_, ?_, Or.inl ⟨x, hq⟩⟩
        · rw [List.map_append, hf]
          have hc : seqOf v.base q = c := by simp [seqOf, hp]
          rw [hc] at h1
          exact h1.snoc (Nat.le_max_left _ _)
        · rw [List.filter_append]
          simpa using h2
    · rw [if_neg hqp] at hf
      exact ⟨l, hl, same _ hf⟩
  | merge us b' _ _ h =>
    obtain ⟨R, h1, h2, h3⟩ := hT
    obtain ⟨R', h4, h5, h6⟩ := mergeRel_tiled h R hv h1 h3
    refine ⟨l ++ [.update us], by rw [hl, List.append_assoc], R', h4, ?_, h6⟩
    rw [notified_append, h5, h2]
    simp [notified]
  | interest n lt h => exact ⟨l ++ [.interest n lt], by rw [hl, List.append_assoc], hT.quiet rfl (by simp)⟩
  | stored n d h => exact ⟨l ++ [.data d], by rw [hl, List.append_assoc], hT.quiet rfl (by simp)⟩
  | nack d h => exact ⟨l ++ [.data d], by rw [hl, List.append_assoc], hT.quiet rfl (by simp)⟩
  | data now iname dname buf fr r hd h =>
    exact ⟨l ++ r.2.map Out.data, by simp only [hl, List.append_assoc], hT.quiet rfl (by simp)⟩
  | fire t => exact ⟨l, hl, hT⟩
  | tick t => exact ⟨l, hl, hT⟩

theorem Micros.tiled {ρ : Rules} {p : Name} (hrem : ¬ ρ.remove p) {v v' : View} (h : Micros ρ v v') (hv : v.base.Inv) :
    ∃ l, v'.log = v.log ++ l ∧ Tiled p (∃ q, ρ.publish p q) (seqOf v.base p) v'.base l := by
  have : v'.base.Inv ∧ ∃ l, v'.log = v.log ++ l ∧ Tiled p (∃ q, ρ.publish p q) (seqOf v.base p) v'.base l := by
    induction h with
    | refl => exact ⟨hv, [], by simp, [], .nil _, rfl, Or.inr (by simp)⟩
    | tail _ h ih => exact ⟨h.steps.inv ih.1, h.tiled hrem ih.1 ih.2⟩
  exact this.2

end PSync
