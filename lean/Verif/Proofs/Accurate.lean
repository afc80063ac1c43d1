import Verif.Spec.Accurate
import Verif.Proofs.IeeeSize
import Mathlib.Analysis.Convex.SpecificFunctions.Basic
/-!
The error of the computed size of a Bloom filter.
-/
set_option exponentiation.threshold 3000

namespace PSync
namespace Ieee
open Spec

/-- A step upwards from a normal number is small. -/
theorem val_step {f : Nat} (h : 2 ^ 52 ≤ f) : 2 ^ 52 * val (f + 1) ≤ (2 ^ 52 + 1) * val f := by
  rcases mag_cases f with h' | ⟨e, x, h1, h2, rfl⟩
  · omega
  · rw [Nat.add_assoc, val_normal h1 (by omega), val_normal (by omega) (by omega)]
    have : 2 ^ 52 * (x + 1) ≤ (2 ^ 52 + 1) * x := by omega
    calc 2 ^ 52 * ((x + 1) * 2 ^ e) = 2 ^ 52 * (x + 1) * 2 ^ e := by ac_rfl
      _ ≤ (2 ^ 52 + 1) * x * 2 ^ e := Nat.mul_le_mul_right _ this
      _ = (2 ^ 52 + 1) * (x * 2 ^ e) := by ac_rfl

/-- Rounding changes a number by at most 2^-52 of it. -/
theorem round_rel {a b : Nat} (hb : 0 < b) (h1 : b * 2 ^ 52 ≤ a) (h2 : a ≤ b * 2 ^ 2097) :
    round a b < INF ∧ 2 ^ 52 * (b * val (round a b)) ≤ (2 ^ 52 + 1) * a ∧ 2 ^ 52 * a ≤ (2 ^ 52 + 1) * (b * val (round a b)) := by
  have hM : 2 ^ 2097 ≤ val (INF - 1) := by decide +kernel
  have hn : near a b ≤ INF - 1 := by
    rw [← near_exact (b := b) (m := INF - 1) hb]
    apply near_mono hb hb
    apply Nat.mul_le_mul_right
    exact Nat.le_trans h2 (Nat.mul_le_mul_left _ hM)
  have hI : 0 < INF := by decide
  have e : round a b = near a b := by rw [round_eq]; omega
  rw [e]
  refine ⟨by omega, ?_⟩
  obtain ⟨f, f1, f2, f3⟩ := near_cases (a := a) hb
  have hf : 2 ^ 52 ≤ f := by
    rcases Nat.lt_or_ge f (2 ^ 52) with h | h
    · exfalso
      have hv : val (f + 1) ≤ 2 ^ 52 := by
        have : val (2 ^ 52) = 2 ^ 52 := by decide +kernel
        rw [← this]
        exact val_le (by omega)
      have := Nat.mul_le_mul_left b hv
      omega
    · exact h
  have hs := Nat.mul_le_mul_left b (val_step hf)
  have hs : 2 ^ 52 * (b * val (f + 1)) ≤ (2 ^ 52 + 1) * (b * val f) := by
    calc 2 ^ 52 * (b * val (f + 1)) = b * (2 ^ 52 * val (f + 1)) := by ac_rfl
      _ ≤ b * ((2 ^ 52 + 1) * val f) := hs
      _ = (2 ^ 52 + 1) * (b * val f) := by ac_rfl
  rcases f3 with ⟨e, _⟩ | ⟨e, _⟩ <;> rw [e]
  · constructor <;> omega
  · constructor <;> omega

theorem unit_real : (UNIT : ℝ) = 2 ^ 1074 := by
  rw [UNIT_eq, Nat.cast_pow, Nat.cast_ofNat]

theorem unit_real_pos : (0 : ℝ) < (UNIT : ℝ) := by exact_mod_cast UNIT_pos

/-- The same in real numbers. -/
theorem round_real {a b : Nat} (hb : 0 < b) {q : ℝ} (hq : q = a / (b * UNIT)) (h1 : 1 / 2 ^ 1000 ≤ q) (h2 : q ≤ 2 ^ 1000) :
    round a b < INF ∧ |(val (round a b) : ℝ) / UNIT - q| ≤ 1 / 2 ^ 52 * q := by
  have hU := unit_real_pos
  have hbr : (0 : ℝ) < b := by exact_mod_cast hb
  have ha : (a : ℝ) = q * (b * UNIT) := by
    rw [hq]; field_simp
  have n1 : b * 2 ^ 52 ≤ a := by
    have : (b : ℝ) * 2 ^ 52 ≤ a := by
      rw [ha, unit_real]
      have : (2 : ℝ) ^ 52 ≤ q * 2 ^ 1074 := by
        calc (2 : ℝ) ^ 52 ≤ 1 / 2 ^ 1000 * 2 ^ 1074 := by norm_num
          _ ≤ q * 2 ^ 1074 := mul_le_mul_of_nonneg_right h1 (by positivity)
      calc (b : ℝ) * 2 ^ 52 ≤ b * (q * 2 ^ 1074) := mul_le_mul_of_nonneg_left this hbr.le
        _ = q * (b * 2 ^ 1074) := by ring
    exact_mod_cast this
  have n2 : a ≤ b * 2 ^ 2097 := by
    have : (a : ℝ) ≤ b * 2 ^ 2097 := by
      rw [ha, unit_real]
      have : q * 2 ^ 1074 ≤ (2 : ℝ) ^ 2097 := by
        calc q * 2 ^ 1074 ≤ 2 ^ 1000 * 2 ^ 1074 := mul_le_mul_of_nonneg_right h2 (by positivity)
          _ ≤ 2 ^ 2097 := by rw [← pow_add]; exact pow_le_pow_right₀ (by norm_num) (by norm_num)
      calc q * ((b : ℝ) * 2 ^ 1074) = (b : ℝ) * (q * 2 ^ 1074) := by ring
        _ ≤ (b : ℝ) * 2 ^ 2097 := mul_le_mul_of_nonneg_left this hbr.le
    exact_mod_cast this
  obtain ⟨r1, r2, r3⟩ := round_rel hb n1 n2
  refine ⟨r1, ?_⟩
  generalize round a b = r at *
  have r2 : (2 : ℝ) ^ 52 * (b * val r) ≤ (2 ^ 52 + 1) * a := by exact_mod_cast r2
  have r3 : (2 : ℝ) ^ 52 * a ≤ (2 ^ 52 + 1) * (b * val r) := by exact_mod_cast r3
  set v : ℝ := (val r : ℝ) / UNIT with hv
  have hval : (val r : ℝ) = v * UNIT := by rw [hv]; field_simp
  rw [hval, ha] at r2 r3
  have hbu : (0 : ℝ) < b * UNIT := mul_pos hbr hU
  have r2 : (2 : ℝ) ^ 52 * v ≤ (2 ^ 52 + 1) * q := by
    refine le_of_mul_le_mul_right ?_ hbu
    calc (2 : ℝ) ^ 52 * v * (b * UNIT) = 2 ^ 52 * (b * (v * UNIT)) := by ring
      _ ≤ (2 ^ 52 + 1) * (q * (b * UNIT)) := r2
      _ = (2 ^ 52 + 1) * q * (b * UNIT) := by ring
  have r3 : (2 : ℝ) ^ 52 * q ≤ (2 ^ 52 + 1) * v := by
    refine le_of_mul_le_mul_right ?_ hbu
    calc (2 : ℝ) ^ 52 * q * (b * UNIT) = 2 ^ 52 * (q * (b * UNIT)) := by ring
      _ ≤ (2 ^ 52 + 1) * (b * (v * UNIT)) := r3
      _ = (2 ^ 52 + 1) * v * (b * UNIT) := by ring
  have hq0 : 0 < q := lt_of_lt_of_le (by positivity) h1
  rw [abs_le]
  constructor
  · by_contra hlt
    push Not at hlt
    have : (2 ^ 52 + 1) * v < (2 ^ 52 + 1) * (q - 1 / 2 ^ 52 * q) := by
      apply mul_lt_mul_of_pos_left _ (by positivity)
      linarith
    have h3 : ((2 : ℝ) ^ 52 + 1) * (q - 1 / 2 ^ 52 * q) ≤ 2 ^ 52 * q := by
      norm_num
      linarith
    linarith
  · have : v ≤ (2 ^ 52 + 1) / 2 ^ 52 * q := by
      rw [div_mul_eq_mul_div, le_div_iff₀ (by positivity)]
      linarith
    norm_num at this ⊢
    linarith

theorem real_mk_false {m : Nat} (h : m < 2 ^ 63) : real (mk false m) = (val m : ℝ) / UNIT := by
  unfold real; rw [sign_mk _ h, mag_mk _ h]; simp

theorem real_pos_eq {x : Double} (h : sign x = false) : real x = (val (mag x) : ℝ) / UNIT := by
  unfold real; rw [h]; simp

theorem real_neg_eq {x : Double} (h : sign x = true) : real x = -((val (mag x) : ℝ) / UNIT) := by
  unfold real; rw [h]; simp

theorem real_ofNat {n : Nat} (h : n < 2 ^ 53) : real (ofNat n) = n := by
  rw [real_pos_eq (sign_ofNat n), val_ofNat h]
  have := unit_real_pos
  push_cast
  field_simp

theorem real_lt_iff {x y : Double} (hx : sign x = false) (hy : sign y = false) : real x < real y ↔ mag x < mag y := by
  rw [real_pos_eq hx, real_pos_eq hy, div_lt_div_iff_of_pos_right unit_real_pos]
  constructor
  · intro h; exact lt_of_val_lt (by exact_mod_cast h)
  · intro h; exact_mod_cast val_lt h

theorem real_pos_iff {x : Double} (hx : sign x = false) : 0 < real x ↔ 0 < mag x := by
  have h0 : sign (0#64) = false := rfl
  have := real_lt_iff h0 hx
  rwa [show mag (0#64) = 0 from rfl, show real (0#64) = 0 by rw [real_pos_eq h0, show mag (0#64) = 0 from rfl, show val 0 = 0 from rfl]; simp] at this

/-- The error of `1.0 - y`. -/
theorem real_oneMinus {y : Double} (h1 : sign y = false) (h2 : real y < 1) (h3 : 1 / 2 ^ 1000 ≤ 1 - real y) :
    sign (oneMinus y) = false ∧ mag (oneMinus y) < INF ∧ |real (oneMinus y) - (1 - real y)| ≤ 1 / 2 ^ 52 * (1 - real y) := by
  have hU := unit_real_pos
  have ho : real (ofNat 1) = 1 := by rw [real_ofNat (by norm_num)]; simp
  have hm : mag y < mag (ofNat 1) := by
    rw [← real_lt_iff h1 (sign_ofNat 1), ho]; exact h2
  have hi : mag (ofNat 1) < INF := ofNat_lt_INF (by decide)
  have hv : val (mag y) < UNIT := by
    have := val_lt hm
    rwa [val_ofNat (by decide), Nat.one_mul] at this
  have e : oneMinus y = mk false (round (UNIT - val (mag y)) 1) := by
    unfold oneMinus
    rw [if_neg (by omega), if_neg (by omega), h1, if_neg (by simp), if_pos (by omega)]
  have hy0 : 0 ≤ real y := by rw [real_pos_eq h1]; positivity
  obtain ⟨r1, r2⟩ := round_real (a := UNIT - val (mag y)) (b := 1) (q := 1 - real y) (by decide)
    (by rw [real_pos_eq h1, Nat.cast_sub hv.le]; push_cast; field_simp) h3
    (by
      calc 1 - real y ≤ 1 := by linarith
        _ ≤ 2 ^ 1000 := one_le_pow₀ (by norm_num))
  have hlt := INF_lt
  rw [e, sign_mk _ (by omega), mag_mk _ (by omega), real_mk_false (by omega)]
  exact ⟨rfl, r1, r2⟩

/-- The error of a quotient of two numbers of the same sign. -/
theorem real_div {x y : Double} (hx : mag x < INF) (hy : mag y < INF) (hs : sign x = sign y) {q : ℝ} (hq : q = real x / real y)
    (h1 : 1 / 2 ^ 1000 ≤ q) (h2 : q ≤ 2 ^ 1000) :
    sign (div x y) = false ∧ mag (div x y) < INF ∧ |real (div x y) - q| ≤ 1 / 2 ^ 52 * q := by
  have hU := unit_real_pos
  have hq0 : 0 < q := lt_of_lt_of_le (by positivity) h1
  have hqv : q = (val (mag x) : ℝ) / val (mag y) := by
    rw [hq]
    cases h : sign y
    · rw [real_pos_eq (hs.trans h), real_pos_eq h, div_div_div_cancel_right₀ hU.ne']
    · rw [real_neg_eq (hs.trans h), real_neg_eq h, neg_div_neg_eq, div_div_div_cancel_right₀ hU.ne']
  have hvy : 0 < val (mag y) := by
    rcases Nat.eq_zero_or_pos (val (mag y)) with h | h
    · rw [hqv, h] at hq0; simp at hq0
    · exact h
  have hmy : mag y ≠ 0 := by
    intro h
    rw [h, show val 0 = 0 from rfl] at hvy
    omega
  have e : div x y = mk false (round (val (mag x) * UNIT) (val (mag y))) := by
    unfold div
    simp only
    rw [hs, if_neg (by omega), if_neg (by omega), if_neg (by omega), if_neg hmy]
    simp
  obtain ⟨r1, r2⟩ := round_real (a := val (mag x) * UNIT) (b := val (mag y)) (q := q) hvy
    (by rw [hqv]; push_cast; rw [mul_div_mul_right _ _ hU.ne']) h1 h2
  have hlt := INF_lt
  rw [e, sign_mk _ (by omega), mag_mk _ (by omega), real_mk_false (by omega)]
  exact ⟨rfl, r1, r2⟩

/-! ### Real numbers -/

theorem abs_log_one_add {u : ℝ} (h : |u| ≤ 1 / 2) : |Real.log (1 + u)| ≤ 2 * |u| := by
  rw [abs_le] at h
  have h1 : 0 < 1 + u := by linarith
  have hu := Real.log_le_sub_one_of_pos h1
  have hl := Real.one_sub_inv_le_log_of_pos h1
  have hi : 1 - (1 + u)⁻¹ = u / (1 + u) := by field_simp; ring
  rw [hi] at hl
  rw [abs_le]
  constructor
  · refine le_trans ?_ hl
    rw [le_div_iff₀ h1]
    rcases abs_cases u with ⟨e, h0⟩ | ⟨e, h0⟩ <;> rw [e] <;> nlinarith
  · have := le_abs_self u
    have := abs_nonneg u
    linarith

/-- What an error of `p^(1/k)` and of the subtraction does to the logarithm. -/
theorem log_close {Y y z : ℝ} (h1 : 1 / 2 ^ 30 ≤ Y) (h2 : Y ≤ 1 - 1 / 2 ^ 20) (hy : |y - Y| ≤ 1 / 2 ^ 39 * Y)
    (hz : |z - (1 - y)| ≤ 1 / 2 ^ 52 * (1 - y)) :
    0 < z ∧ z < 1 ∧ |Real.log z - Real.log (1 - Y)| ≤ 1 / 2 ^ 17 * -Real.log (1 - Y) := by
  have hw : 0 < 1 - Y := by norm_num at h2 ⊢; linarith
  have hY : 0 < Y := lt_of_lt_of_le (by positivity) h1
  have hL : Y ≤ -Real.log (1 - Y) := by
    have := Real.log_le_sub_one_of_pos hw
    linarith
  set w := 1 - Y with hwd
  rw [abs_le] at hy hz
  norm_num at h1 h2 hy hz
  have hzw : |z - w| ≤ 1 / 2 ^ 18 * Y * w := by
    have hYw : 1 / 2 ^ 20 * Y ≤ Y * w := by
      rw [mul_comm]
      exact mul_le_mul_of_nonneg_left (by norm_num; linarith) hY.le
    have hYw2 : 1 / 2 ^ 30 * w ≤ Y * w := mul_le_mul_of_nonneg_right (by norm_num; linarith) hw.le
    norm_num at hYw hYw2 ⊢
    rw [abs_le]
    constructor <;> linarith
  have hzw' := hzw
  rw [abs_le] at hzw'
  have hYw1 : Y * w ≤ w := by nlinarith
  norm_num at hzw'
  have hz0 : 0 < z := by linarith
  refine ⟨hz0, by linarith, ?_⟩
  set u := z / w - 1 with hud
  have hzu : z = w * (1 + u) := by rw [hud]; field_simp; ring
  have hu : |u| ≤ 1 / 2 ^ 18 * Y := by
    have : |u| * w = |z - w| := by
      rw [← abs_of_pos hw, ← abs_mul, abs_of_pos hw, hud]
      congr 1
      field_simp
    refine le_of_mul_le_mul_right ?_ hw
    rw [this]
    exact hzw
  have hu2 : |u| ≤ 1 / 2 := by norm_num at hu ⊢; linarith
  have h1u : 0 < 1 + u := by
    rw [abs_le] at hu2
    linarith
  have hlog := abs_log_one_add hu2
  rw [hzu, Real.log_mul hw.ne' h1u.ne', add_sub_cancel_left]
  norm_num at hu ⊢
  linarith

/-- `p^(1/k)` is between `p` and `1 - (1 - p) / k`. -/
theorem root_bounds {P : ℝ} (h0 : 0 < P) (h1 : P ≤ 1) {k : Nat} (hk : 1 ≤ k) :
    P ≤ P ^ (1 / (k : ℝ)) ∧ P ^ (1 / (k : ℝ)) ≤ 1 - (1 - P) / k := by
  have hk' : (1 : ℝ) ≤ k := by exact_mod_cast hk
  have hk1 : 1 / (k : ℝ) ≤ 1 := by rw [div_le_one (by linarith)]; exact hk'
  have hk0 : 0 ≤ 1 / (k : ℝ) := by positivity
  constructor
  · have := Real.rpow_le_rpow_of_exponent_ge h0 h1 hk1
    rwa [Real.rpow_one] at this
  · have := rpow_one_add_le_one_add_mul_self (s := P - 1) (by linarith) hk0 hk1
    rw [show 1 + (P - 1) = P by ring] at this
    refine le_trans this (le_of_eq ?_)
    ring

/-- What an error of the exponent and of `std::pow` does to `p^(1/k)`. -/
theorem root_close {P e y : ℝ} (h0 : 1 / 2 ^ 30 ≤ P) (h1 : P ≤ 1) {k : Nat} (hk : 1 ≤ k) (he : |e - 1 / k| ≤ 1 / 2 ^ 52 * (1 / k))
    (hy : |y - P ^ e| ≤ 1 / 2 ^ 40 * P ^ e) : |y - P ^ (1 / (k : ℝ))| ≤ 1 / 2 ^ 39 * P ^ (1 / (k : ℝ)) := by
  have hP : 0 < P := lt_of_lt_of_le (by positivity) h0
  have hk' : (1 : ℝ) ≤ k := by exact_mod_cast hk
  have hk1 : 1 / (k : ℝ) ≤ 1 := by rw [div_le_one (by linarith)]; exact hk'
  set Y := P ^ (1 / (k : ℝ)) with hY
  have hY0 : 0 < Y := Real.rpow_pos_of_pos hP _
  have hlog0 : Real.log P ≤ 0 := Real.log_nonpos hP.le h1
  have hlog : -30 ≤ Real.log P := by
    have ha := Real.log_le_log (by positivity) h0
    rw [one_div, Real.log_inv, Real.log_pow] at ha
    have hb := Real.log_le_sub_one_of_pos (show (0 : ℝ) < 2 by norm_num)
    push_cast at ha
    linarith
  set t := Real.log P * (e - 1 / k) with ht
  have htb : |t| ≤ 1 / 2 ^ 46 := by
    rw [ht, abs_mul]
    have : |Real.log P| ≤ 30 := by rw [abs_le]; constructor <;> linarith
    calc |Real.log P| * |e - 1 / k| ≤ 30 * (1 / 2 ^ 52 * 1) :=
          mul_le_mul this (le_trans he (mul_le_mul_of_nonneg_left hk1 (by positivity))) (abs_nonneg _) (by norm_num)
      _ ≤ 1 / 2 ^ 46 := by norm_num
  have hPe : P ^ e = Y * Real.exp t := by
    rw [hY, Real.rpow_def_of_pos hP, Real.rpow_def_of_pos hP, ← Real.exp_add, ht]
    congr 1
    ring
  have hexp := Real.abs_exp_sub_one_le (x := t) (le_trans htb (by norm_num))
  have hexp : |Real.exp t - 1| ≤ 1 / 2 ^ 45 := by
    norm_num at htb hexp ⊢
    linarith
  rw [hPe] at hy
  rw [abs_le] at hexp hy ⊢
  have a1 : Y * Real.exp t ≤ Y * (1 + 1 / 2 ^ 45) := mul_le_mul_of_nonneg_left (by linarith) hY0.le
  have a2 : Y * (1 - 1 / 2 ^ 45) ≤ Y * Real.exp t := mul_le_mul_of_nonneg_left (by linarith) hY0.le
  norm_num at *
  constructor <;> linarith

/-! ### The computed size -/

/-- What an error of the logarithm and of the division does to the quotient. -/
theorem quotient_close {N L E r : ℝ} (hN0 : 0 < N) (hL0 : 0 < L) (hD0 : 0 < E) (hD1 : (1 - 1 / 2 ^ 16) * L ≤ E) (hD2 : E ≤ (1 + 1 / 2 ^ 16) * L)
    (d3 : |r - N / E| ≤ 1 / 2 ^ 52 * (N / E)) : |r - N / L| ≤ 1 / 10000 * (N / L) := by
  have hNL : 0 < N / L := div_pos hN0 hL0
  have q1 : N / E ≤ (1 + 1 / 2 ^ 15) * (N / L) := by
    rw [div_le_iff₀ hD0]
    have hx : N = N / L * L := by field_simp
    have : (1 : ℝ) * (N / L * L) ≤ (1 + 1 / 2 ^ 15) * (1 - 1 / 2 ^ 16) * (N / L * L) :=
      mul_le_mul_of_nonneg_right (by norm_num) (by positivity)
    calc N = 1 * (N / L * L) := by rw [one_mul]; exact hx
      _ ≤ (1 + 1 / 2 ^ 15) * (1 - 1 / 2 ^ 16) * (N / L * L) := this
      _ = (1 + 1 / 2 ^ 15) * (N / L) * ((1 - 1 / 2 ^ 16) * L) := by ring
      _ ≤ (1 + 1 / 2 ^ 15) * (N / L) * E := mul_le_mul_of_nonneg_left hD1 (by positivity)
  have q2 : (1 - 1 / 2 ^ 15) * (N / L) ≤ N / E := by
    rw [le_div_iff₀ hD0]
    have hx : N = N / L * L := by field_simp
    have : (1 - 1 / 2 ^ 15) * (1 + 1 / 2 ^ 16) * (N / L * L) ≤ (1 : ℝ) * (N / L * L) :=
      mul_le_mul_of_nonneg_right (by norm_num) (by positivity)
    calc (1 - 1 / 2 ^ 15) * (N / L) * E ≤ (1 - 1 / 2 ^ 15) * (N / L) * ((1 + 1 / 2 ^ 16) * L) :=
          mul_le_mul_of_nonneg_left hD2 (mul_nonneg (by norm_num) hNL.le)
      _ = (1 - 1 / 2 ^ 15) * (1 + 1 / 2 ^ 16) * (N / L * L) := by ring
      _ ≤ 1 * (N / L * L) := this
      _ = N := by rw [one_mul]; exact hx.symm
  rw [abs_le] at d3 ⊢
  generalize N / L = a at *
  generalize N / E = b at *
  norm_num at d3 q1 q2 ⊢
  constructor <;> linarith

/-- The computed size is the ideal one up to 1/10000 of it. -/
theorem size_accurate {log : Double → Double} {pow : Double → Double → Double} (ha : Accurate log pow) {p : Double} (hs : sign p = false)
    (h1 : 1 / 2 ^ 30 ≤ real p) (h2 : real p ≤ 1 - 1 / 2 ^ 10) {count k : Nat} (hc : 1 ≤ count) (hc2 : count < 2 ^ 32) (hk : 1 ≤ k) (hk2 : k < 1000) :
    sign ((Libm.ieee log pow).currM count p k) = false ∧ mag ((Libm.ieee log pow).currM count p k) < INF ∧
      |real ((Libm.ieee log pow).currM count p k) - idealSize count (real p) k| ≤ 1 / 10000 * idealSize count (real p) k := by
  have hone : real (ofNat 1) = 1 := by rw [real_ofNat (by norm_num)]; simp
  have hkr : (1 : ℝ) ≤ k := by exact_mod_cast hk
  have hkr2 : (k : ℝ) ≤ 999 := by exact_mod_cast (show k ≤ 999 by omega)
  have hcr : (1 : ℝ) ≤ count := by exact_mod_cast hc
  have hcr2 : (count : ℝ) ≤ 2 ^ 32 := by exact_mod_cast hc2.le
  have hP0 : 0 < real p := lt_of_lt_of_le (by positivity) h1
  have hP1 : real p < 1 := by norm_num at h2; linarith
  have hpm : mag p < mag (ofNat 1) := by rw [← real_lt_iff hs (sign_ofNat 1), hone]; exact hP1
  -- the exponent
  obtain ⟨e1, e2, e3⟩ := real_div (x := ofNat 1) (y := ofNat k) (q := 1 / k) (ofNat_lt_INF (by decide)) (ofNat_lt_INF (by omega))
    (by rw [sign_ofNat, sign_ofNat]) (by rw [hone, real_ofNat (by omega)])
    (by
      rw [div_le_div_iff_of_pos_left one_pos (by positivity) (by linarith)]
      refine le_trans hkr2 (le_trans (by norm_num : (999 : ℝ) ≤ 2 ^ 10) ?_)
      exact pow_le_pow_right₀ (by norm_num) (by norm_num))
    (by
      calc 1 / (k : ℝ) ≤ 1 := by rw [div_le_one (by linarith)]; exact hkr
        _ ≤ 2 ^ 1000 := one_le_pow₀ (by norm_num))
  obtain ⟨x1, x2, x3⟩ := exponent_of hk hk2
  have x4 : mag (div (ofNat 1) (ofNat k)) ≤ mag (ofNat 1) := by
    rcases Nat.eq_or_lt_of_le hk with rfl | hk'
    · have : div (ofNat 1) (ofNat 1) = ofNat 1 := by decide +kernel
      rw [this]
    · apply Nat.le_of_lt
      rw [← real_lt_iff x1 (sign_ofNat 1), hone]
      have hk'r : (2 : ℝ) ≤ k := by exact_mod_cast hk'
      have : 1 / (k : ℝ) ≤ 1 / 2 := by rw [div_le_div_iff_of_pos_left one_pos (by linarith) (by norm_num)]; exact hk'r
      rw [abs_le] at e3
      norm_num at e3 this ⊢
      linarith
  -- the power
  obtain ⟨w1, w2⟩ := ha.pow p _ hs h1 hpm x1 x2 x4
  have hroot := root_close h1 hP1.le hk e3 w2
  obtain ⟨b1, b2⟩ := root_bounds hP0 hP1.le hk
  unfold idealSize
  show sign (div (mul (neg (ofNat k)) (ofNat count)) (log (oneMinus (pow p (div (ofNat 1) (ofNat k)))))) = false ∧
    mag (div (mul (neg (ofNat k)) (ofNat count)) (log (oneMinus (pow p (div (ofNat 1) (ofNat k)))))) < INF ∧
    |real (div (mul (neg (ofNat k)) (ofNat count)) (log (oneMinus (pow p (div (ofNat 1) (ofNat k)))))) - _| ≤ _
  generalize pow p (div (ofNat 1) (ofNat k)) = y at w1 hroot ⊢
  generalize real p ^ (1 / (k : ℝ)) = Y at hroot b1 b2 ⊢
  have hY1 : 1 / 2 ^ 30 ≤ Y := le_trans h1 b1
  have hY2 : Y ≤ 1 - 1 / 2 ^ 20 := by
    have : 1 / 2 ^ 20 ≤ (1 - real p) / k := by
      rw [le_div_iff₀ (by linarith)]
      norm_num at h2 ⊢
      linarith
    linarith
  have hyr := hroot
  rw [abs_le] at hyr
  have hy0 : 0 < real y := by norm_num at hyr hY1; linarith
  have hy1 : real y ≤ 1 - 1 / 2 ^ 21 := by norm_num at hyr hY2 ⊢; linarith
  have hys : sign y = false := by
    cases h : sign y with
    | false => rfl
    | true =>
      exfalso
      rw [real_neg_eq h] at hy0
      have : 0 ≤ (val (mag y) : ℝ) / UNIT := by positivity
      linarith
  -- the difference
  obtain ⟨o1, o2, o3⟩ := real_oneMinus hys (by norm_num at hy1; linarith) (by
    have : (1 : ℝ) / 2 ^ 1000 ≤ 1 / 2 ^ 21 := by
      rw [div_le_div_iff_of_pos_left one_pos (by positivity) (by positivity)]
      exact pow_le_pow_right₀ (by norm_num) (by norm_num)
    linarith)
  obtain ⟨z1, z2, z3⟩ := log_close hY1 hY2 hroot o3
  -- the logarithm
  obtain ⟨l1, l2⟩ := ha.log _ o1 ((real_pos_iff o1).mp z1) (by rw [← real_lt_iff o1 (sign_ofNat 1), hone]; exact z2)
  have hw : 0 < 1 - Y := by norm_num at hY2; linarith
  set L := -Real.log (1 - Y) with hL
  have hLY : Y ≤ L := by
    have := Real.log_le_sub_one_of_pos hw
    rw [hL]
    linarith
  have hL0 : 0 < L := lt_of_lt_of_le (lt_of_lt_of_le (by positivity) hY1) hLY
  have hLu : L ≤ 2 ^ 20 := by
    have := Real.one_sub_inv_le_log_of_pos hw
    have hi : (1 - Y)⁻¹ ≤ 2 ^ 20 := by
      rw [inv_le_comm₀ hw (by positivity)]
      norm_num at hY2 ⊢
      linarith
    rw [hL]
    linarith
  generalize log (oneMinus y) = D at l1 l2 ⊢
  have hlz : Real.log (real (oneMinus y)) < 0 := Real.log_neg z1 z2
  rw [abs_of_neg hlz] at l2
  generalize Real.log (real (oneMinus y)) = l at l2 z3 hlz
  have hlog : Real.log (1 - Y) = -L := by rw [hL]; ring
  rw [hlog] at z3
  rw [abs_le] at z3 l2
  have hD1 : (1 - 1 / 2 ^ 16) * L ≤ -real D := by norm_num at z3 l2 ⊢; linarith
  have hD2 : -real D ≤ (1 + 1 / 2 ^ 16) * L := by norm_num at z3 l2 ⊢; linarith
  have hD0 : 0 < -real D := by norm_num at hD1; linarith
  have hDs : sign D = true := by
    cases h : sign D with
    | true => rfl
    | false =>
      exfalso
      rw [real_pos_eq h] at hD0
      have : 0 ≤ (val (mag D) : ℝ) / UNIT := by positivity
      linarith
  -- the numerator
  obtain ⟨n1, n2, n3⟩ := numerator_of hk hk2 hc hc2
  have hnum : real (mul (neg (ofNat k)) (ofNat count)) = -(k * count) := by
    have k1 := ofNat_lt_INF (n := k) (by omega)
    have c1 := ofNat_lt_INF (n := count) (by omega)
    have hlt := INF_lt
    have hp : k * count < 2 ^ 53 := by
      have : k * count ≤ 1000 * 2 ^ 32 := Nat.mul_le_mul (by omega) (by omega)
      omega
    have e2 : mag (neg (ofNat k)) = mag (ofNat k) := by
      unfold neg; rw [mag_mk _ (by omega)]
    have e4 : mag (mul (neg (ofNat k)) (ofNat count)) = mag (ofNat (k * count)) := by
      unfold mul
      simp only
      rw [e2, if_neg (by omega), if_neg (by omega), mag_mk_round, val_ofNat (by omega), val_ofNat (by omega)]
      have h := round_exact (b := UNIT) (m := mag (ofNat (k * count))) UNIT_pos (Nat.le_of_lt (ofNat_lt_INF hp))
      rw [val_ofNat hp] at h
      rw [← h]
      congr 1
      ring
    rw [real_neg_eq n1, e4, ← real_pos_eq (sign_ofNat _), real_ofNat hp]
    push_cast
    ring
  -- the quotient
  have hN0 : (1 : ℝ) ≤ k * count := one_le_mul_of_one_le_of_one_le hkr hcr
  have hN1 : (k : ℝ) * count ≤ 2 ^ 42 := by
    calc (k : ℝ) * count ≤ 999 * 2 ^ 32 := mul_le_mul hkr2 hcr2 (by linarith) (by norm_num)
      _ ≤ 2 ^ 42 := by norm_num
  generalize (k : ℝ) * count = N at hnum hN0 hN1 ⊢
  have hq : N / -real D = real (mul (neg (ofNat k)) (ofNat count)) / real D := by rw [hnum, div_neg, neg_div]
  obtain ⟨d1, d2, d3⟩ := real_div n3 l1 (n1.trans hDs.symm) hq
    (by
      have h21 : -real D ≤ 2 ^ 21 := by norm_num at hD2 hLu ⊢; linarith
      calc (1 : ℝ) / 2 ^ 1000 ≤ 1 / 2 ^ 21 := by
            rw [div_le_div_iff_of_pos_left one_pos (by positivity) (by positivity)]
            exact pow_le_pow_right₀ (by norm_num) (by norm_num)
        _ ≤ N / -real D := by
            rw [div_le_div_iff₀ (by positivity) hD0, one_mul]
            exact le_trans h21 (le_mul_of_one_le_left (by positivity) hN0))
    (by
      have h31 : 1 / 2 ^ 31 ≤ -real D := by norm_num at hD1 hLY hY1 ⊢; linarith
      calc N / -real D ≤ 2 ^ 42 / (1 / 2 ^ 31) := div_le_div₀ (by positivity) hN1 (by positivity) h31
        _ = 2 ^ 73 := by norm_num
        _ ≤ 2 ^ 1000 := pow_le_pow_right₀ (by norm_num) (by norm_num))
  refine ⟨d1, d2, ?_⟩
  generalize real (div (mul (neg (ofNat k)) (ofNat count)) D) = r at d3 ⊢
  exact quotient_close (by linarith) hL0 hD0 hD1 hD2 d3

end Ieee
end PSync
