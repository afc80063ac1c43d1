import Verif.Proofs.IbltAny
import Verif.Proofs.IbltSpec
/-!
How far peeling can move the counts of tables of any content.
-/
namespace PSync

/-- All counts of `t` are between -K and K. -/
def Within (K : Int) (t : Table) : Prop := ∀ c ∈ t, -K ≤ c.count ∧ c.count ≤ K

theorem peelAt_within {b : Nat} (hb : 0 < b) {p : Peel} (hl : p.table.length = 3 * b) {K : Int} (hK : K + 1 < 2147483648)
    (hw : Within K p.table) (j : Nat) : ∃ p', peelAt p j = .ok p' ∧ p'.table.length = 3 * b ∧ Within (K + 1) p'.table := by
  have up : Within (K + 1) p.table := fun c hc => by have := hw c hc; omega
  unfold peelAt
  cases hc : p.table[j]? with
  | none => exact ⟨p, rfl, hl, up⟩
  | some c =>
    simp only
    by_cases hp : c.isPure = true
    · have h1 := isPure_count hp
      rw [if_pos hp, ibltUpdate_of hb hl (pm := -c.count) (k := c.keySum), Res.ok_bind]
      · have hl' : (addKey b p.table (-c.count) c.keySum).length = 3 * b := by rw [addKey_length, hl]
        have hw' : Within (K + 1) (addKey b p.table (-c.count) c.keySum) := by
          intro x hx
          obtain ⟨m, hm⟩ := List.mem_iff_getElem?.mp hx
          rw [addKey_getElem?] at hm
          cases hy : p.table[m]? with
          | none => rw [hy] at hm; simp at hm
          | some y =>
            rw [hy] at hm
            simp only [Option.map_some, Option.some.injEq] at hm
            have := hw y (List.mem_of_getElem? hy)
            subst hm
            split
            · simp only [Cell.add]; omega
            · omega
        split
        · exact ⟨_, rfl, hl', hw'⟩
        · exact ⟨_, rfl, hl', hw'⟩
      · intro m x hx _
        have := hw x (List.mem_of_getElem? hx)
        rw [inI32_iff]
        omega
    · rw [if_neg hp]
      exact ⟨p, rfl, hl, up⟩

theorem peelFold_within {b : Nat} (hb : 0 < b) (js : List Nat) : ∀ {p : Peel} {K : Int}, p.table.length = 3 * b →
    K + js.length < 2147483648 → Within K p.table →
    ∃ p', foldRes peelAt p js = .ok p' ∧ p'.table.length = 3 * b ∧ Within (K + js.length) p'.table := by
  induction js with
  | nil => intro p K hl _ hw; exact ⟨p, rfl, hl, by simpa using hw⟩
  | cons j js ih =>
    intro p K hl hK hw
    simp only [List.length_cons, Int.natCast_add, Int.natCast_one] at hK ⊢
    obtain ⟨p1, e1, l1, w1⟩ := peelAt_within hb hl (by omega) hw j
    obtain ⟨p2, e2, l2, w2⟩ := ih l1 (K := K + 1) (by omega) w1
    refine ⟨p2, ?_, l2, ?_⟩
    · simp only [foldRes, e1, Res.ok_bind, e2]
    · have : K + 1 + (js.length : Int) = K + (js.length + 1) := by omega
      rw [← this]; exact w2

theorem peelLoop_within {b : Nat} (hb : 0 < b) : ∀ (fuel : Nat) {p : Peel} {K : Int}, p.table.length = 3 * b →
    K + (fuel * (3 * b) : Nat) < 2147483648 → Within K p.table → peelLoop fuel p = .hang ∨ ∃ p', peelLoop fuel p = .ok p' := by
  intro fuel
  induction fuel with
  | zero => intro p K _ _ _; exact .inl rfl
  | succ fuel ih =>
    intro p K hl hK hw
    have e : (fuel + 1) * (3 * b) = fuel * (3 * b) + 3 * b := Nat.succ_mul _ _
    rw [e] at hK
    obtain ⟨p1, e1, l1, w1⟩ := peelFold_within hb (List.range p.table.length) (p := { p with nErased := 0 }) (K := K) hl
      (by simp only [List.length_range, hl]; omega) hw
    simp only [List.length_range, hl] at w1 e1
    simp only [peelLoop, peelPass, hl, e1, Res.ok_bind]
    split
    · exact ih l1 (K := K + (3 * b : Nat)) (by omega) w1
    · exact .inr ⟨p1, rfl⟩

end PSync
