import Verif.Proofs.IeeeLibm
import Verif.Spec.Bloom
/-!
The table size that `Libm.ieee` computes for the probabilities 0 and 1 and above 1.
-/
set_option exponentiation.threshold 3000

namespace PSync
namespace Ieee
open Spec

theorem ofNat_one_eq : ofNat 1 = mk false (mag (ofNat 1)) := by
  conv_lhs => rw [← mk_sign_mag (ofNat 1), sign_ofNat]

theorem ofNat_zero : ofNat 0 = 0#64 := by
  have h : mag (ofNat 0) = 0 := val_inj (by rw [val_ofNat (by decide), Nat.zero_mul]; rfl)
  rw [← mk_sign_mag (ofNat 0), sign_ofNat, h]
  rfl

/-- The numerator `-k * count`. -/
theorem numerator_of {k count : Nat} (hk : 1 ≤ k) (hk2 : k < 1000) (hc : 1 ≤ count) (hc2 : count < 2 ^ 32) :
    sign (mul (neg (ofNat k)) (ofNat count)) = true ∧ 0 < mag (mul (neg (ofNat k)) (ofNat count)) ∧
      mag (mul (neg (ofNat k)) (ofNat count)) < INF := by
  have k1 := ofNat_lt_INF (n := k) (by omega)
  have c1 := ofNat_lt_INF (n := count) (by omega)
  have hlt := INF_lt
  have e1 : sign (neg (ofNat k)) = true := by
    unfold neg; rw [sign_ofNat, sign_mk _ (by omega)]; rfl
  have e2 : mag (neg (ofNat k)) = mag (ofNat k) := by
    unfold neg; rw [mag_mk _ (by omega)]
  have hp : k * count < 2 ^ 53 := by
    have : k * count ≤ 1000 * 2 ^ 32 := Nat.mul_le_mul (by omega) (by omega)
    omega
  have e3 : mul (neg (ofNat k)) (ofNat count) = mk true (mag (ofNat (k * count))) := by
    unfold mul
    simp only
    rw [e1, e2, if_neg (by omega), if_neg (by omega), sign_ofNat, val_ofNat (by omega), val_ofNat (by omega)]
    have h := round_exact (b := UNIT) (m := mag (ofNat (k * count))) UNIT_pos (Nat.le_of_lt (ofNat_lt_INF hp))
    rw [val_ofNat hp] at h
    rw [← h]
    congr 2
    rw [Nat.mul_comm k count, Nat.mul_mul_mul_comm, ← Nat.mul_assoc, ← Nat.mul_assoc, Nat.mul_right_comm, Nat.mul_comm (k * count),
      Nat.mul_comm count k, Nat.mul_assoc, Nat.mul_assoc]
  have h4 := ofNat_lt_INF hp
  rw [e3, sign_mk _ (by omega), mag_mk _ (by omega)]
  exact ⟨rfl, ofNat_pos hp (Nat.mul_pos hk hc), h4⟩

/-- The exponent `1.0 / k`. -/
theorem exponent_of {k : Nat} (hk : 1 ≤ k) (hk2 : k < 1000) :
    sign (div (ofNat 1) (ofNat k)) = false ∧ 0 < mag (div (ofNat 1) (ofNat k)) ∧ mag (div (ofNat 1) (ofNat k)) < INF := by
  have k1 := ofNat_lt_INF (n := k) (by omega)
  have k2 := ofNat_pos (n := k) (by omega) hk
  have o1 : mag (ofNat 1) < INF := ofNat_lt_INF (by decide)
  have hku : 0 < k * UNIT := Nat.mul_pos hk UNIT_pos
  have e : div (ofNat 1) (ofNat k) = mk false (round (UNIT * UNIT) (k * UNIT)) := by
    unfold div
    simp only
    rw [if_neg (by omega), if_neg (by omega), if_neg (by omega), if_neg (by omega), sign_ofNat, sign_ofNat, val_ofNat (by decide),
      val_ofNat (by omega), Nat.one_mul]
    rfl
  rw [e, sign_mk_round, mag_mk_round]
  refine ⟨rfl, ?_, ?_⟩
  · have h := round_exact (b := k * UNIT) (m := 1) hku (by decide)
    have hm : round (k * UNIT * val 1) (k * UNIT) ≤ round (UNIT * UNIT) (k * UNIT) := by
      apply round_mono hku hku
      apply Nat.mul_le_mul_right
      rw [val_small (by decide), Nat.mul_one]
      apply Nat.mul_le_mul_right
      have : k ≤ 2 ^ 1074 := Nat.le_trans (show k ≤ 2 ^ 10 by omega) (Nat.pow_le_pow_right (by decide) (by decide))
      rw [UNIT_eq]; exact this
    omega
  · have h := round_exact (b := k * UNIT) (m := mag (ofNat 1)) hku (Nat.le_of_lt o1)
    rw [val_ofNat (by decide), Nat.one_mul] at h
    have hm : round (UNIT * UNIT) (k * UNIT) ≤ round (k * UNIT * UNIT) (k * UNIT) := by
      apply round_mono hku hku
      apply Nat.mul_le_mul_right
      apply Nat.mul_le_mul_right
      exact Nat.le_mul_of_pos_left _ hk
    omega

theorem oneMinus_one : oneMinus (ofNat 1) = ofNat 0 := by
  have o1 : mag (ofNat 1) < INF := ofNat_lt_INF (by decide)
  unfold oneMinus
  rw [if_neg (by omega), if_neg (by omega), sign_ofNat, if_neg (by simp), val_ofNat (by decide), if_pos (by omega)]
  unfold ofNat
  congr 2
  omega

theorem oneMinus_zero : oneMinus (ofNat 0) = ofNat 1 := by
  have o1 : mag (ofNat 0) < INF := ofNat_lt_INF (by decide)
  unfold oneMinus
  rw [if_neg (by omega), if_neg (by omega), sign_ofNat, if_neg (by simp), val_ofNat (by decide), if_pos (by omega)]
  unfold ofNat
  congr 2
  omega

/-- `1.0 - y` for y > 1. -/
theorem oneMinus_above {y : Double} (h1 : sign y = false) (h2 : mag (ofNat 1) < mag y) (h3 : mag y ≤ INF) :
    sign (oneMinus y) = true ∧ 0 < mag (oneMinus y) ∧ mag (oneMinus y) ≤ INF := by
  have hlt := INF_lt
  unfold oneMinus
  rw [if_neg (by omega)]
  split
  · rw [h1, sign_mk _ hlt, mag_mk _ hlt]
    exact ⟨rfl, by decide, Nat.le_refl _⟩
  · have hv := val_lt h2
    rw [val_ofNat (by decide), Nat.one_mul] at hv
    rw [h1, if_neg (by simp), if_neg (by omega), sign_mk_round, mag_mk_round]
    refine ⟨rfl, ?_, round_le _ _⟩
    have h := round_exact (b := 1) (m := 1) (by decide) (by decide)
    have hm : round (1 * val 1) 1 ≤ round (val (mag y) - UNIT) 1 := by
      apply round_mono (by decide) (by decide)
      rw [val_small (by decide)]
      omega
    omega

end Ieee
open Ieee Spec

theorem mag_zero : mag (0#64) = 0 := rfl
theorem sign_zero : sign (0#64) = false := rfl

theorem ieee_thousand (log : Double → Double) (pow : Double → Double → Double) : (Libm.ieee log pow).ofThousandths 1000 = ofNat 1 := by
  rw [ofThousandths_eq log pow (by decide), gotMag_thousand, ← ofNat_one_eq]

theorem ieee_none (log : Double → Double) (pow : Double → Double → Double) : (Libm.ieee log pow).ofThousandths 0 = ofNat 0 := by
  rw [ofThousandths_eq log pow (by decide), gotMag_zero, ofNat_zero]
  rfl

theorem ieee_valid {log : Double → Double} {pow : Double → Double → Double} {p : Double} (h1 : sign p = false) (h2 : mag p < INF) :
    (Libm.ieee log pow).invalidProb p = false := by
  show (lt p 0#64 || decide (mag p = INF)) = false
  unfold lt
  rw [h1, sign_zero, mag_zero, if_neg (by omega), decide_eq_false (show ¬ mag p = INF by omega)]
  simp

/-- `Libm.ieee` meets the hypotheses of `c17_false`. -/
theorem ieee_at_one {log : Double → Double} {pow : Double → Double → Double} (hf : AnnexF log pow) : IeeeAtOne (Libm.ieee log pow) := by
  have c1 : lt 0#64 (mk false INF) = true := by decide +kernel
  have c2 : lt 0#64 0#64 = false := by decide +kernel
  have c3 : toUnsigned (2 ^ 32) 0#64 = some 0 := by decide +kernel
  refine ⟨?_, ?_, c1, c2, c3⟩
  · rw [ieee_thousand]
    exact ieee_valid (sign_ofNat _) (ofNat_lt_INF (by decide))
  · intro count k hc hc2 hk hk2
    obtain ⟨n1, n2, n3⟩ := numerator_of hk hk2 hc hc2
    rw [ieee_thousand]
    show div _ (log (oneMinus (pow (ofNat 1) _))) = _
    rw [hf.pow_one, oneMinus_one, hf.log_zero]
    unfold div
    simp only
    rw [mag_mk _ INF_lt, sign_mk _ INF_lt, n1, if_neg (by omega), if_neg (by omega), if_pos rfl]
    rfl

/-- `Libm.ieee` meets the hypotheses of `c17_false_cast`. -/
theorem ieee_at_zero {log : Double → Double} {pow : Double → Double → Double} (hf : AnnexF log pow) : IeeeAtZero (Libm.ieee log pow) := by
  have c1 : lt (mk true INF) (mk false INF) = true := by decide +kernel
  have c2 : lt (mk true INF) (mk true INF) = false := by decide +kernel
  have c3 : toUnsigned (2 ^ 32) (mk true INF) = none := by decide +kernel
  refine ⟨?_, mk true INF, ?_, c1, c2, c3⟩
  · rw [ieee_none]
    exact ieee_valid (sign_ofNat _) (ofNat_lt_INF (by decide))
  · intro count k hc hc2 hk hk2
    obtain ⟨n1, n2, n3⟩ := numerator_of hk hk2 hc hc2
    obtain ⟨x1, x2, x3⟩ := exponent_of hk hk2
    rw [ieee_none]
    show div _ (log (oneMinus (pow (ofNat 0) _))) = _
    rw [hf.pow_zero _ x1 x2 x3, oneMinus_zero, hf.log_one]
    have z : mag (ofNat 0) = 0 := by rw [ofNat_zero]; rfl
    unfold div
    simp only
    have := INF_lt
    have i0 : 0 < INF := by decide
    rw [z, sign_ofNat, n1, if_neg (by omega), if_neg (by omega), if_neg (by omega), if_pos rfl, if_neg (by omega)]
    rfl

/-- Above 1, every `curr_m` is zero or a NaN. -/
theorem ieee_above {log : Double → Double} {pow : Double → Double → Double} (hf : AnnexF log pow) (hw : PowAtLeastOne pow) {p : Double}
    (h1 : sign p = false) (h2 : mag (ofNat 1) ≤ mag p) (h3 : mag p < INF) {count k : Nat} (hc : 1 ≤ count) (hc2 : count < 2 ^ 32)
    (hk : 1 ≤ k) (hk2 : k < 1000) :
    (Libm.ieee log pow).currM count p k = 0#64 ∨ INF < mag ((Libm.ieee log pow).currM count p k) := by
  obtain ⟨n1, n2, n3⟩ := numerator_of hk hk2 hc hc2
  obtain ⟨x1, x2, x3⟩ := exponent_of hk hk2
  obtain ⟨w1, w2, w3⟩ := hw p _ h1 h2 h3 x1 x2 x3
  show div _ (log (oneMinus (pow p (div (ofNat 1) (ofNat k))))) = 0#64 ∨ INF < mag (div _ (log (oneMinus (pow p (div (ofNat 1) (ofNat k))))))
  rcases Nat.lt_or_ge (mag (ofNat 1)) (mag (pow p (div (ofNat 1) (ofNat k)))) with h | h
  · right
    obtain ⟨o1, o2, o3⟩ := oneMinus_above w1 h w3
    have hn := hf.log_neg _ o1 o2 o3
    unfold div
    simp only
    rw [if_pos (.inr hn)]
    decide +kernel
  · left
    have e : pow p (div (ofNat 1) (ofNat k)) = ofNat 1 := eq_of_sign_mag (by rw [w1, sign_ofNat]) (by omega)
    rw [e, oneMinus_one, hf.log_zero]
    unfold div
    simp only
    rw [mag_mk _ INF_lt, sign_mk _ INF_lt, n1, if_neg (by omega), if_neg (by omega), if_pos rfl]
    rfl

/-- A search among zeros and NaNs ends with infinity or zero. -/
theorem ieee_search {log : Double → Double} {pow : Double → Double → Double} {count : Nat} {p : Double}
    (h : ∀ k, 1 ≤ k → k < 1000 → (Libm.ieee log pow).currM count p k = 0#64 ∨ INF < mag ((Libm.ieee log pow).currM count p k)) :
    ((Libm.ieee log pow).search count p).1 = 0#64 ∨ ((Libm.ieee log pow).search count p).1 = mk false INF := by
  unfold Libm.search
  have hl : ∀ k ∈ List.range' 1 999, 1 ≤ k ∧ k < 1000 := by
    intro k hk
    rw [List.mem_range'_1] at hk
    omega
  have key : ∀ (l : List Nat) (m : Double) (best : Nat), (∀ k ∈ l, 1 ≤ k ∧ k < 1000) → (m = 0#64 ∨ m = mk false INF) →
      ((Libm.ieee log pow).searchFrom count p l m best).1 = 0#64 ∨ ((Libm.ieee log pow).searchFrom count p l m best).1 = mk false INF := by
    intro l
    induction l with
    | nil => intro m best _ hm; exact hm
    | cons k l ih =>
      intro m best hk hm
      rw [Libm.searchFrom]
      split
      · rename_i hlt
        refine ih _ _ (fun k' hk' => hk k' (by simp [hk'])) ?_
        rcases h k (hk k (by simp)).1 (hk k (by simp)).2 with e | e
        · exact .inl e
        · exfalso
          revert hlt
          show lt _ m = true → False
          unfold lt
          rw [if_pos (.inl e)]
          simp
      · exact ih _ _ (fun k' hk' => hk k' (by simp [hk'])) hm
  exact key _ _ _ hl (.inr rfl)

/-- What a transmitted number of at least 1000 becomes. -/
theorem ieee_got_above (log : Double → Double) (pow : Double → Double → Double) {th : Nat} (h1 : 1000 ≤ th) (h2 : th < 2 ^ 64) :
    sign ((Libm.ieee log pow).ofThousandths th) = false ∧ mag (ofNat 1) ≤ mag ((Libm.ieee log pow).ofThousandths th) ∧
      mag ((Libm.ieee log pow).ofThousandths th) < INF := by
  have hk : mag (ofNat 1000) < INF := ofNat_lt_INF (by decide)
  have hk0 : 0 < mag (ofNat 1000) := ofNat_pos (by decide) (by decide)
  have hu : 0 < 1000 * UNIT := Nat.mul_pos (by decide) UNIT_pos
  -- the number itself
  have a1 : mag (ofNat 1000) ≤ mag (ofNat th) := by
    unfold ofNat
    rw [mag_mk_round, mag_mk_round]
    apply round_mono (by decide) (by decide)
    have := Nat.mul_le_mul_right UNIT h1
    omega
  have he : round (1 * 2 ^ 1138) 1 = floorMag (1 * 2 ^ 1138) := round_one_exact (by decide) (by decide)
  have hei : floorMag (1 * 2 ^ 1138) < INF := exact_lt_INF (by decide) (by decide)
  have hev : val (floorMag (1 * 2 ^ 1138)) = 1 * 2 ^ 1138 := val_floorMag_exact (by decide)
  have hsp : 2 ^ 1138 = 2 ^ 64 * UNIT := by rw [UNIT_eq, ← Nat.pow_add]
  rw [Nat.one_mul, hsp] at he hei hev
  have a2 : mag (ofNat th) ≤ floorMag (2 ^ 64 * UNIT) := by
    rw [← he]
    unfold ofNat
    rw [mag_mk_round]
    apply round_mono (by decide) (by decide)
    have := Nat.mul_le_mul_right UNIT (Nat.le_of_lt h2)
    omega
  have e : (Libm.ieee log pow).ofThousandths th = mk false (round (val (mag (ofNat th)) * UNIT) (1000 * UNIT)) := by
    show div (ofNat th) (ofNat 1000) = _
    unfold div
    simp only
    rw [if_neg (by omega), if_neg (by omega), if_neg (by omega), if_neg (by omega), sign_ofNat, sign_ofNat, val_ofNat (n := 1000) (by decide)]
    rfl
  rw [e, sign_mk_round, mag_mk_round]
  refine ⟨rfl, ?_, ?_⟩
  · rw [← gotMag_thousand]
    unfold gotMag
    apply round_mono hu hu
    apply Nat.mul_le_mul_right
    apply Nat.mul_le_mul_right
    have := val_le a1
    rwa [val_ofNat (by decide)] at this
  · have hx := round_exact (b := 1000 * UNIT) (m := floorMag (2 ^ 64 * UNIT)) hu (Nat.le_of_lt hei)
    have hm : round (val (mag (ofNat th)) * UNIT) (1000 * UNIT) ≤ round (1000 * UNIT * val (floorMag (2 ^ 64 * UNIT))) (1000 * UNIT) := by
      apply round_mono hu hu
      apply Nat.mul_le_mul_right
      rw [Nat.mul_comm]
      apply Nat.mul_le_mul
      · omega
      · exact val_le a2
    omega

end PSync
