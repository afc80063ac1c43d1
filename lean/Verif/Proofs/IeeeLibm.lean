import Verif.Proofs.IeeeThousandths
/-!
The operations of `Libm.ieee` on probabilities.
-/
set_option exponentiation.threshold 3000

namespace PSync
namespace Ieee
open Spec

theorem sentMag_one : sentMag (mag (ofNat 1)) = 1000 := by
  unfold sentMag
  rw [val_ofNat (by decide), Nat.one_mul]
  have h := round_exact (b := UNIT) (m := mag (ofNat 1000)) UNIT_pos (Nat.le_of_lt (ofNat_lt_INF (by decide)))
  rw [val_ofNat (by decide)] at h
  rw [h, val_ofNat (by decide), Nat.mul_div_cancel _ UNIT_pos]

theorem toThousandths_eq (log : Double → Double) (pow : Double → Double → Double) {p : Double} (h1 : sign p = false)
    (h2 : mag p ≤ mag (ofNat 1)) : (Libm.ieee log pow).toThousandths p = some (sentMag (mag p)) ∧ sentMag (mag p) ≤ 1000 := by
  have hle : sentMag (mag p) ≤ 1000 := by rw [← sentMag_one]; exact sentMag_mono h2
  refine ⟨?_, hle⟩
  have hp : mag p < INF := Nat.lt_of_le_of_lt h2 (ofNat_lt_INF (by decide))
  have hk : mag (ofNat 1000) < INF := ofNat_lt_INF (by decide)
  have hR : round (val (mag p) * (1000 * UNIT)) UNIT < INF := by
    apply Nat.lt_of_le_of_lt (m := round (UNIT * val (mag (ofNat 1000))) UNIT)
    · apply round_mono UNIT_pos UNIT_pos
      apply Nat.mul_le_mul_right
      rw [val_ofNat (by decide)]
      apply Nat.mul_le_mul_right
      have := val_le h2
      rwa [val_ofNat (by decide), Nat.one_mul] at this
    · rw [round_exact UNIT_pos (Nat.le_of_lt hk)]; exact hk
  have e : mul p (ofNat 1000) = mk false (round (val (mag p) * (1000 * UNIT)) UNIT) := by
    unfold mul
    simp only
    rw [if_neg (by omega), if_neg (by omega), h1, sign_ofNat, val_ofNat (by decide)]
    rfl
  show toUnsigned (2 ^ 64) (mul p (ofNat 1000)) = _
  unfold toUnsigned
  rw [e, mag_mk_round, sign_mk_round, if_neg (by omega), if_neg (by simp)]
  exact if_pos (Nat.lt_of_le_of_lt hle (by decide))

theorem ofThousandths_eq (log : Double → Double) (pow : Double → Double → Double) {k : Nat} (hk : k < 2 ^ 53) :
    (Libm.ieee log pow).ofThousandths k = mk false (gotMag k) := by
  show div (ofNat k) (ofNat 1000) = _
  have h1 := ofNat_lt_INF hk
  have h2 : mag (ofNat 1000) < INF := ofNat_lt_INF (by decide)
  have h3 : 0 < mag (ofNat 1000) := ofNat_pos (by decide) (by decide)
  unfold div
  simp only
  rw [if_neg (by omega), if_neg (by omega), if_neg (by omega), if_neg (by omega), sign_ofNat, sign_ofNat, val_ofNat hk, val_ofNat (by decide)]
  rfl

theorem sign_ofThousandths (log : Double → Double) (pow : Double → Double → Double) {k : Nat} (hk : k < 2 ^ 53) :
    sign ((Libm.ieee log pow).ofThousandths k) = false := by
  rw [ofThousandths_eq log pow hk]; exact sign_mk_round _ _ _

theorem mag_ofThousandths (log : Double → Double) (pow : Double → Double → Double) {k : Nat} (hk : k < 2 ^ 53) :
    mag ((Libm.ieee log pow).ofThousandths k) = gotMag k := by
  rw [ofThousandths_eq log pow hk]; exact mag_mk_round _ _ _

theorem gotMag_mono {j k : Nat} (h : j ≤ k) : gotMag j ≤ gotMag k := by
  unfold gotMag
  have hu : 0 < 1000 * UNIT := Nat.mul_pos (by decide) UNIT_pos
  apply round_mono hu hu
  exact Nat.mul_le_mul_right _ (Nat.mul_le_mul_right _ (Nat.mul_le_mul_right _ h))

theorem gotMag_thousand : gotMag 1000 = mag (ofNat 1) := by
  have hu : 0 < 1000 * UNIT := Nat.mul_pos (by decide) UNIT_pos
  have h := round_exact (b := 1000 * UNIT) (m := mag (ofNat 1)) hu (Nat.le_of_lt (ofNat_lt_INF (by decide)))
  rw [val_ofNat (by decide), Nat.one_mul] at h
  exact h

theorem gotMag_zero : gotMag 0 = 0 := by
  unfold gotMag
  have h := round_exact (b := 1000 * UNIT) (m := 0) (Nat.mul_pos (by decide) UNIT_pos) (by decide)
  rw [val_small (by decide), Nat.mul_zero] at h
  rw [Nat.zero_mul, Nat.zero_mul]
  exact h

theorem UNIT_split : ∃ P, UNIT = 8 * P ∧ Nat.Coprime 125 P ∧ ∀ j, j < 2 ^ 53 → val (floorMag (j * P)) = j * P := by
  refine ⟨2 ^ 1071, ?_, Nat.Coprime.pow_right 1071 (by decide), fun j hj => val_floorMag_exact hj⟩
  rw [UNIT_eq, show (8 : Nat) = 2 ^ 3 by decide, ← Nat.pow_add]

/-- k/1000 is not in the middle of two doubles. -/
theorem no_tie {k f : Nat} (hk : k ≤ 1000) : 2 * (k * UNIT) ≠ 1000 * (val f + val (f + 1)) := by
  intro h
  obtain ⟨P, hP, hc, hex⟩ := UNIT_split
  have h1 : k * (2 * P) = 125 * (val f + val (f + 1)) := by
    rw [hP, show 8 * P = 4 * (2 * P) by omega, Nat.mul_left_comm k] at h
    omega
  have h2 : 125 ∣ k := by
    have hc' : Nat.Coprime 125 (2 * P) := Nat.Coprime.mul_right (by decide) hc
    exact hc'.dvd_of_dvd_mul_right ⟨_, h1⟩
  obtain ⟨j, rfl⟩ := h2
  have h3 : 2 * (j * P) = val f + val (f + 1) := by
    rw [Nat.mul_assoc, Nat.mul_left_comm j] at h1
    omega
  have h4 := hex j (by omega)
  have h5 := val_lt_succ f
  have h6 := lt_of_val_lt (m := f) (n := floorMag (j * P)) (by omega)
  have h7 := lt_of_val_lt (m := floorMag (j * P)) (n := f + 1) (by omega)
  omega

/-- The two neighbours of k/1000, one of which is `gotMag k`. -/
theorem gotMag_cases {k : Nat} (hk : k ≤ 1000) : ∃ f, 1000 * val f ≤ k * UNIT ∧ k * UNIT < 1000 * val (f + 1) ∧
    ((gotMag k = f ∧ 2 * (k * UNIT) < 1000 * (val f + val (f + 1))) ∨
     (gotMag k = f + 1 ∧ 1000 * (val f + val (f + 1)) < 2 * (k * UNIT))) := by
  have hu : 0 < 1000 * UNIT := Nat.mul_pos (by decide) UNIT_pos
  obtain ⟨f, h1, h2, h3⟩ := near_cases (a := k * UNIT * UNIT) hu
  have c1 : ∀ x y, 1000 * UNIT * x ≤ y * UNIT → 1000 * x ≤ y := fun x y h =>
    Nat.le_of_mul_le_mul_right (by rwa [Nat.mul_right_comm] at h) UNIT_pos
  have c2 : ∀ x y, y * UNIT < 1000 * UNIT * x → y < 1000 * x := fun x y h =>
    Nat.lt_of_mul_lt_mul_right (a := UNIT) (by rwa [Nat.mul_right_comm] at h)
  have c3 : ∀ x y, y * UNIT ≤ 1000 * UNIT * x → y ≤ 1000 * x := fun x y h =>
    Nat.le_of_mul_le_mul_right (by rwa [Nat.mul_right_comm 1000] at h) UNIT_pos
  have ht := no_tie (f := f) hk
  have hg : gotMag k = near (k * UNIT * UNIT) (1000 * UNIT) := by
    have : gotMag k ≤ mag (ofNat 1) := by rw [← gotMag_thousand]; exact gotMag_mono hk
    have h5 : mag (ofNat 1) < INF := ofNat_lt_INF (by decide)
    unfold gotMag at this ⊢
    rw [round_eq] at this ⊢
    omega
  refine ⟨f, c1 _ _ h1, c2 _ _ h2, ?_⟩
  rcases h3 with ⟨e, h3⟩ | ⟨e, h3⟩
  · have := c3 (val f + val (f + 1)) (2 * (k * UNIT)) (by rw [Nat.mul_assoc]; exact h3)
    exact .inl ⟨hg.trans e, by omega⟩
  · have := c1 (val f + val (f + 1)) (2 * (k * UNIT)) (by rw [Nat.mul_assoc 2]; exact h3)
    exact .inr ⟨hg.trans e, by omega⟩

/-- The literal k/1000 is the double that is made from the transmitted k. -/
theorem isThousandths_iff {k : Nat} (hk : k ≤ 1000) (d : Double) : IsThousandths k d ↔ d = mk false (gotMag k) := by
  obtain ⟨f, h1, h2, h3⟩ := gotMag_cases hk
  have hlt : gotMag k < INF := by
    have h4 : gotMag k ≤ mag (ofNat 1) := by rw [← gotMag_thousand]; exact gotMag_mono hk
    have h5 : mag (ofNat 1) < INF := ofNat_lt_INF (by decide)
    omega
  have hmk : mag (mk false (gotMag k)) = gotMag k := mag_mk _ (Nat.lt_trans hlt INF_lt)
  constructor
  · rintro ⟨a, b, c⟩
    have c' := c _ hlt
    apply eq_of_sign_mag
    · rw [a, sign_mk _ (Nat.lt_trans hlt INF_lt)]
    · rw [hmk]
      unfold apart at c'
      rcases Nat.lt_or_ge f (mag d) with h | h
      · have hv := val_le (show f + 1 ≤ mag d from h)
        rcases h3 with ⟨e, h3⟩ | ⟨e, h3⟩
        · rw [e] at c'; omega
        · rw [e] at c' ⊢
          apply val_inj
          omega
      · have hv := val_le h
        rcases h3 with ⟨e, h3⟩ | ⟨e, h3⟩
        · rw [e] at c' ⊢
          apply val_inj
          omega
        · rw [e] at c'; omega
  · rintro rfl
    refine ⟨sign_mk _ (Nat.lt_trans hlt INF_lt), by rw [hmk]; exact hlt, fun m _ => ?_⟩
    rw [hmk]
    unfold apart
    rcases Nat.lt_or_ge f m with h | h
    · have hv := val_le (show f + 1 ≤ m from h)
      rcases h3 with ⟨e, h3⟩ | ⟨e, h3⟩ <;> rw [e] <;> omega
    · have hv := val_le h
      rcases h3 with ⟨e, h3⟩ | ⟨e, h3⟩ <;> rw [e] <;> omega

end Ieee
end PSync
