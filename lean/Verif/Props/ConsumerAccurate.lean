import Verif.Proofs.Accurate
import Verif.Props.ConsumerOptions
/-!
C97, for machines whose `std::log` and `std::pow` are accurate: which options give a working consumer.
-/
set_option exponentiation.threshold 3000

namespace PSync
open Ieee Spec

/-- The conversion of a size to `unsigned int`. -/
theorem toU32_real (log : Double → Double) (pow : Double → Double → Double) {x : Double} (hs : sign x = false) (hm : mag x < INF) :
    (real x < 4294967296 → ∃ m, (Libm.ieee log pow).toU32 x = some m ∧ (1 ≤ m ↔ 1 ≤ real x) ∧ (m ≤ 4294967288 ↔ real x < 4294967289)) ∧
    (4294967296 ≤ real x → (Libm.ieee log pow).toU32 x = none) := by
  have hU := unit_real_pos
  have key : ∀ n : Nat, val (mag x) / UNIT < n ↔ real x < n := by
    intro n
    rw [Nat.div_lt_iff_lt_mul UNIT_pos, real_pos_eq hs, div_lt_iff₀ hU]
    constructor
    · intro h; exact_mod_cast h
    · intro h; exact_mod_cast h
  have e : (Libm.ieee log pow).toU32 x = if val (mag x) / UNIT < 2 ^ 32 then some (val (mag x) / UNIT) else none := by
    show toUnsigned (2 ^ 32) x = _
    unfold toUnsigned
    rw [if_neg (by omega), hs, if_neg (by simp)]
  have k1 := key 1
  have k2 := key 4294967289
  have k3 := key 4294967296
  push_cast at k1 k2 k3
  rw [e]
  constructor
  · intro h
    rw [if_pos (by rw [show (2 : Nat) ^ 32 = 4294967296 from rfl, k3]; exact h)]
    refine ⟨_, rfl, ?_, ?_⟩
    · rw [← not_lt, ← not_lt, ← k1]
    · rw [← k2]; omega
  · intro h
    rw [if_neg]
    rw [show (2 : Nat) ^ 32 = 4294967296 from rfl, k3]
    exact not_lt.mpr h

/-- The smallest computed size is one of the computed sizes, and none is smaller. -/
theorem least_real {log : Double → Double} {pow : Double → Double → Double} (ha : Accurate log pow) {p : Double} (hs : sign p = false)
    (h1 : 1 / 2 ^ 30 ≤ real p) (h2 : real p ≤ 1 - 1 / 2 ^ 10) {count : Nat} (hc : 1 ≤ count) (hc2 : count < 2 ^ 32) :
    ∃ x, LeastSize log pow count p x ∧ sign x = false ∧ mag x < INF ∧
      (∃ k, 1 ≤ k ∧ k < 1000 ∧ x = (Libm.ieee log pow).currM count p k) ∧
      ∀ k, 1 ≤ k → k < 1000 → real x ≤ real ((Libm.ieee log pow).currM count p k) := by
  obtain ⟨x, hx⟩ := least_exists log pow count p
  have i1 : mag (mk false INF) = INF := mag_mk _ INF_lt
  have i2 : sign (mk false INF) = false := sign_mk _ INF_lt
  have hfound : ∃ k, 1 ≤ k ∧ k < 1000 ∧ x = (Libm.ieee log pow).currM count p k := by
    rcases hx.found with rfl | ⟨k, k1, k2, e, _⟩
    · exfalso
      obtain ⟨a1, a2, _⟩ := size_accurate ha hs h1 h2 hc hc2 (k := 1) (by decide) (by decide)
      have := hx.least 1 (by decide) (by decide)
      unfold lt at this
      rw [i1, i2, a1, if_neg (by omega)] at this
      simp only [decide_eq_false_iff_not] at this
      omega
    · exact ⟨k, k1, k2, e⟩
  obtain ⟨k, k1, k2, e⟩ := hfound
  obtain ⟨a1, a2, _⟩ := size_accurate ha hs h1 h2 hc hc2 k1 k2
  rw [← e] at a1 a2
  refine ⟨x, hx, a1, a2, ⟨k, k1, k2, e⟩, ?_⟩
  intro j j1 j2
  obtain ⟨b1, b2, _⟩ := size_accurate ha hs h1 h2 hc hc2 j1 j2
  have := hx.least j j1 j2
  unfold lt at this
  rw [a1, b1, if_neg (by omega)] at this
  simp only [decide_eq_false_iff_not] at this
  rw [← not_lt, real_lt_iff b1 a1]
  exact this

/-- C97 with accurate `std::log` and `std::pow`, for probabilities from 2^-30 to 1 - 2^-10: the consumer works if no number of hash functions
makes do with (almost) less than one bit and one of them makes do with 4290000000 bits; the behaviour of the constructor is undefined if all need
4300000000 bits; and the consumer cannot subscribe to anything if one makes do with less than one bit.  (Between these bounds, rounding decides;
`c97_exact` covers that.) -/
theorem c97_accurate_partial {log : Double → Double} {pow : Double → Double → Double} (ha : Accurate log pow) (env : CCfg)
    (hl : env.libm = Libm.ieee log pow) (syncPrefix : Name) (o : ConsOptions) (hs : sign o.bfFalsePositive = false)
    (h1 : 1 / 2 ^ 30 ≤ real o.bfFalsePositive) (h2 : real o.bfFalsePositive ≤ 1 - 1 / 2 ^ 10) (hc : 1 ≤ o.bfCount) (hc2 : o.bfCount < 2 ^ 32) :
    ((∀ k, 1 ≤ k → k < 1000 → 1.001 ≤ idealSize o.bfCount (real o.bfFalsePositive) k) →
      (∃ k, 1 ≤ k ∧ k < 1000 ∧ idealSize o.bfCount (real o.bfFalsePositive) k ≤ 4290000000) →
      ∃ s, Cons.construct env syncPrefix o = .ok s ∧ CanSubscribe (o.cfg env syncPrefix) s) ∧
    ((∀ k, 1 ≤ k → k < 1000 → 4300000000 ≤ idealSize o.bfCount (real o.bfFalsePositive) k) →
      Cons.construct env syncPrefix o = .ub .floatCast) ∧
    ((∃ k, 1 ≤ k ∧ k < 1000 ∧ idealSize o.bfCount (real o.bfFalsePositive) k ≤ 0.999) →
      ∃ s, Cons.construct env syncPrefix o = .ok s ∧ NoTable s) := by
  obtain ⟨x, hx, x1, x2, ⟨k0, k1, k2, e⟩, hle⟩ := least_real ha hs h1 h2 hc hc2
  have h := c97_exact log pow env hl syncPrefix o x hx
  have hone : real (ofNat 1) = 1 := by rw [real_ofNat (by norm_num)]; simp
  have hpi : mag o.bfFalsePositive < INF := by
    have : mag o.bfFalsePositive < mag (ofNat 1) := by
      rw [← real_lt_iff hs (sign_ofNat 1), hone]
      norm_num at h2
      linarith
    exact lt_trans this (ofNat_lt_INF (by decide))
  rw [if_neg (by rw [ieee_valid hs hpi]; simp; omega)] at h
  obtain ⟨t1, t2⟩ := toU32_real log pow x1 x2
  have acc : ∀ k, 1 ≤ k → k < 1000 → _ := fun k j1 j2 => (size_accurate ha hs h1 h2 hc hc2 j1 j2).2.2
  have ax := acc k0 k1 k2
  rw [← e, abs_le] at ax
  refine ⟨?_, ?_, ?_⟩
  · rintro b1 ⟨k, j1, j2, b2⟩
    have hk := acc k j1 j2
    rw [abs_le] at hk
    have hu := hle k j1 j2
    have hl0 := b1 k0 k1 k2
    norm_num at b1 hl0
    obtain ⟨m, m1, m2, m3⟩ := t1 (by linarith)
    rw [m1] at h
    obtain ⟨s, s1, s2⟩ := h
    rw [if_pos ⟨m2.mpr (by linarith), m3.mpr (by linarith)⟩] at s2
    exact ⟨s, s1, s2⟩
  · intro b1
    have hl0 := b1 k0 k1 k2
    rw [t2 (by linarith)] at h
    exact h
  · rintro ⟨k, j1, j2, b2⟩
    have hk := acc k j1 j2
    rw [abs_le] at hk
    have hu := hle k j1 j2
    norm_num at b2
    obtain ⟨m, m1, m2, m3⟩ := t1 (by linarith)
    rw [m1] at h
    obtain ⟨s, s1, s2⟩ := h
    rw [if_neg] at s2
    · exact ⟨s, s1, s2⟩
    · rintro ⟨c1, _⟩
      have := m2.mp c1
      linarith

/-! ### Simple ranges -/

theorem log_two_le : Real.log 2 ≤ 5 / 6 := by
  have h : (2 : ℝ) = 4 / 3 * (3 / 2) := by norm_num
  rw [h, Real.log_mul (by norm_num) (by norm_num)]
  have h1 := Real.log_le_sub_one_of_pos (show (0 : ℝ) < 4 / 3 by norm_num)
  have h2 := Real.log_le_sub_one_of_pos (show (0 : ℝ) < 3 / 2 by norm_num)
  linarith

/-- The logarithm that the size is divided by is positive. -/
theorem denominator_pos {P : ℝ} (h0 : 0 < P) (h1 : P < 1) {k : Nat} (hk : 1 ≤ k) :
    0 < P ^ (1 / (k : ℝ)) ∧ P ^ (1 / (k : ℝ)) < 1 ∧ 0 < -Real.log (1 - P ^ (1 / (k : ℝ))) := by
  obtain ⟨b1, b2⟩ := root_bounds h0 h1.le hk
  have hkr : (0 : ℝ) < k := by exact_mod_cast hk
  have : 0 < (1 - P) / k := div_pos (by linarith) hkr
  refine ⟨by linarith, by linarith, ?_⟩
  have := Real.log_neg (x := 1 - P ^ (1 / (k : ℝ))) (by linarith) (by linarith)
  linarith

/-- With a probability of at most one half, every number of hash functions needs more than one bit. -/
theorem ideal_ge {P : ℝ} (h0 : 0 < P) (h1 : P ≤ 1 / 2) {count k : Nat} (hc : 1 ≤ count) (hk : 1 ≤ k) : 1.2 ≤ idealSize count P k := by
  obtain ⟨b1, b2⟩ := root_bounds h0 (by linarith) hk
  obtain ⟨_, c2, c3⟩ := denominator_pos h0 (by linarith) hk
  have hkr : (1 : ℝ) ≤ k := by exact_mod_cast hk
  have hcr : (1 : ℝ) ≤ count := by exact_mod_cast hc
  have hw : 1 / (2 * (k : ℝ)) ≤ 1 - P ^ (1 / (k : ℝ)) := by
    have : 1 / (2 * (k : ℝ)) ≤ (1 - P) / k := by
      rw [div_le_div_iff₀ (by linarith) (by linarith)]
      nlinarith
    linarith
  have hlog : -Real.log (1 - P ^ (1 / (k : ℝ))) ≤ 5 / 6 * k := by
    have l1 := Real.log_le_log (by positivity) hw
    rw [one_div, Real.log_inv] at l1
    have l2 : Real.log (2 * (k : ℝ)) ≤ Real.log (2 ^ k) := by
      apply Real.log_le_log (by linarith)
      have : 2 * k ≤ 2 ^ k := by
        obtain ⟨j, rfl⟩ : ∃ j, k = j + 1 := ⟨k - 1, by omega⟩
        have := Nat.lt_two_pow_self (n := j)
        rw [Nat.pow_succ]
        omega
      exact_mod_cast this
    rw [Real.log_pow] at l2
    have l3 := mul_le_mul_of_nonneg_left log_two_le (show (0 : ℝ) ≤ k by linarith)
    linarith
  unfold idealSize
  rw [le_div_iff₀ c3]
  have : (k : ℝ) ≤ k * count := le_mul_of_one_le_right (by linarith) hcr
  generalize -Real.log (1 - P ^ (1 / (k : ℝ))) = L at hlog ⊢
  norm_num
  linarith

/-- One hash function: the size is at most count / p. -/
theorem ideal_one_le {P : ℝ} (h0 : 0 < P) (h1 : P < 1) (count : Nat) : idealSize count P 1 ≤ count / P := by
  unfold idealSize
  simp only [Nat.cast_one, div_one, Real.rpow_one, one_mul]
  have := Real.log_le_sub_one_of_pos (show 0 < 1 - P by linarith)
  exact div_le_div_of_nonneg_left (by positivity) h0 (by linarith)

/-- Whatever the number of hash functions is, the size is at least count · ln(1/p). -/
theorem ideal_ge_log {P : ℝ} (h0 : 0 < P) (h1 : P < 1) (count : Nat) {k : Nat} (hk : 1 ≤ k) : count * -Real.log P ≤ idealSize count P k := by
  obtain ⟨c1, c2, c3⟩ := denominator_pos h0 h1 hk
  have hkr : (1 : ℝ) ≤ k := by exact_mod_cast hk
  have hlogY : Real.log (P ^ (1 / (k : ℝ))) = 1 / k * Real.log P := Real.log_rpow h0 _
  unfold idealSize
  generalize hY : P ^ (1 / (k : ℝ)) = Y at c1 c2 c3 hlogY ⊢
  have hP : -Real.log P = k * -Real.log Y := by
    rw [hlogY]; field_simp
  rw [hP, le_div_iff₀ c3]
  have m1 : -Real.log Y ≤ (1 - Y) / Y := by
    have := Real.one_sub_inv_le_log_of_pos c1
    have e : (1 - Y) / Y = Y⁻¹ - 1 := by field_simp
    rw [e]; linarith
  have m2 : -Real.log (1 - Y) ≤ Y / (1 - Y) := by
    have hw : 0 < 1 - Y := by linarith
    have := Real.one_sub_inv_le_log_of_pos hw
    have e : Y / (1 - Y) = (1 - Y)⁻¹ - 1 := by field_simp; ring
    rw [e]; linarith
  have m3 : -Real.log Y * -Real.log (1 - Y) ≤ 1 := by
    calc -Real.log Y * -Real.log (1 - Y) ≤ (1 - Y) / Y * (Y / (1 - Y)) :=
          mul_le_mul m1 m2 c3.le (div_nonneg (by linarith) c1.le)
      _ = 1 := by
          have hw : 1 - Y ≠ 0 := by linarith
          field_simp
  calc (count : ℝ) * (k * -Real.log Y) * -Real.log (1 - Y) = k * count * (-Real.log Y * -Real.log (1 - Y)) := by ring
    _ ≤ k * count * 1 := mul_le_mul_of_nonneg_left m3 (by positivity)
    _ = k * count := mul_one _

/-- C97: which simple ranges of options work.  Between 2^-30 and one half, every number of subscriptions up to 4·10^9 times the probability
works. -/
theorem c97_range_partial {log : Double → Double} {pow : Double → Double → Double} (ha : Accurate log pow) (env : CCfg)
    (hl : env.libm = Libm.ieee log pow) (syncPrefix : Name) (o : ConsOptions) (hs : sign o.bfFalsePositive = false)
    (h1 : 1 / 2 ^ 30 ≤ real o.bfFalsePositive) (h2 : real o.bfFalsePositive ≤ 1 / 2) (hc : 1 ≤ o.bfCount)
    (hc2 : (o.bfCount : ℝ) ≤ 4000000000 * real o.bfFalsePositive) :
    ∃ s, Cons.construct env syncPrefix o = .ok s ∧ CanSubscribe (o.cfg env syncPrefix) s := by
  have hp : 0 < real o.bfFalsePositive := lt_of_lt_of_le (by positivity) h1
  have hc3 : o.bfCount < 2 ^ 32 := by
    have : (o.bfCount : ℝ) < 4294967296 := by linarith
    exact_mod_cast this
  refine (c97_accurate_partial ha env hl syncPrefix o hs h1 (by norm_num at h2 ⊢; linarith) hc hc3).1 ?_ ⟨1, by decide, by decide, ?_⟩
  · intro k hk _
    have := ideal_ge hp h2 hc hk
    norm_num at this ⊢
    linarith
  · have := ideal_one_le hp (by linarith) o.bfCount
    have h3 : (o.bfCount : ℝ) / real o.bfFalsePositive ≤ 4000000000 := by rw [div_le_iff₀ hp]; exact hc2
    linarith

/-- C97 is false for too many subscriptions: if their number times ln(1/p) is 4.3·10^9 or more (as for 10^9 subscriptions and p = 0.001), the
behaviour of the constructor is undefined. -/
theorem c97_false_many {log : Double → Double} {pow : Double → Double → Double} (ha : Accurate log pow) (env : CCfg)
    (hl : env.libm = Libm.ieee log pow) (syncPrefix : Name) (o : ConsOptions) (hs : sign o.bfFalsePositive = false)
    (h1 : 1 / 2 ^ 30 ≤ real o.bfFalsePositive) (h2 : real o.bfFalsePositive ≤ 1 - 1 / 2 ^ 10) (hc : 1 ≤ o.bfCount) (hc2 : o.bfCount < 2 ^ 32)
    (hn : 4300000000 ≤ o.bfCount * -Real.log (real o.bfFalsePositive)) : Cons.construct env syncPrefix o = .ub .floatCast := by
  have hp : 0 < real o.bfFalsePositive := lt_of_lt_of_le (by positivity) h1
  refine (c97_accurate_partial ha env hl syncPrefix o hs h1 h2 hc hc2).2.1 fun k hk _ => ?_
  exact le_trans hn (ideal_ge_log hp (by norm_num at h2; linarith) o.bfCount hk)

/-- C97 is false for one expected subscription and a probability from 0.7 to 1 - 2^-10: the consumer is constructed and cannot subscribe to
anything. -/
theorem c97_false_single {log : Double → Double} {pow : Double → Double → Double} (ha : Accurate log pow) (env : CCfg)
    (hl : env.libm = Libm.ieee log pow) (syncPrefix : Name) (o : ConsOptions) (hs : sign o.bfFalsePositive = false)
    (h1 : 0.7 ≤ real o.bfFalsePositive) (h2 : real o.bfFalsePositive ≤ 1 - 1 / 2 ^ 10) (hc : o.bfCount = 1) :
    ∃ s, Cons.construct env syncPrefix o = .ok s ∧ NoTable s := by
  refine (c97_accurate_partial ha env hl syncPrefix o hs (by norm_num at h1 ⊢; linarith) h2 (by omega) (by omega)).2.2
    ⟨1, by decide, by decide, ?_⟩
  have hw : 0 < 1 - real o.bfFalsePositive := by norm_num at h2; linarith
  unfold idealSize
  rw [hc]
  simp only [Nat.cast_one, div_one, Real.rpow_one, one_mul]
  have hlog : 1.03 ≤ -Real.log (1 - real o.bfFalsePositive) := by
    have l1 : Real.log (1 - real o.bfFalsePositive) ≤ Real.log ((20 / 27) ^ 4) := by
      apply Real.log_le_log hw
      norm_num at h1 ⊢
      linarith
    rw [Real.log_pow] at l1
    have l2 := Real.log_le_sub_one_of_pos (show (0 : ℝ) < 20 / 27 by norm_num)
    norm_num at l1 ⊢
    linarith
  rw [div_le_iff₀ (by norm_num at hlog; linarith)]
  norm_num at hlog ⊢
  linarith

/-- C97: the default options work. -/
theorem c97_default {log : Double → Double} {pow : Double → Double → Double} (ha : Accurate log pow) (env : CCfg)
    (hl : env.libm = Libm.ieee log pow) (syncPrefix : Name) :
    ∃ s, Cons.construct env syncPrefix .default = .ok s ∧ CanSubscribe (ConsOptions.default.cfg env syncPrefix) s := by
  have hs : sign ConsOptions.default.bfFalsePositive = false := by decide +kernel
  have hU := unit_real_pos
  have b1 : 1 / 2 ^ 10 ≤ real ConsOptions.default.bfFalsePositive := by
    rw [real_pos_eq hs, div_le_div_iff₀ (by positivity) hU]
    have : 1 * UNIT ≤ val (mag ConsOptions.default.bfFalsePositive) * 2 ^ 10 := by decide +kernel
    exact_mod_cast this
  have b2 : real ConsOptions.default.bfFalsePositive ≤ 1 / 2 := by
    rw [real_pos_eq hs, div_le_div_iff₀ hU (by positivity)]
    have : val (mag ConsOptions.default.bfFalsePositive) * 2 ≤ 1 * UNIT := by decide +kernel
    exact_mod_cast this
  refine c97_range_partial ha env hl syncPrefix .default hs (by norm_num at b1 ⊢; linarith) b2 (by decide) ?_
  have : (ConsOptions.default.bfCount : ℝ) = 6 := by simp [ConsOptions.default]
  rw [this]
  norm_num at b1
  linarith

/-! ### There are such machines -/

/-- The largest double that is not above a real number. -/
noncomputable def below (r : ℝ) : Nat := floorMag ⌊r * UNIT⌋₊

theorem below_close {r : ℝ} (h1 : 1 / 2 ^ 1000 ≤ r) (h2 : r ≤ 2 ^ 1000) : below r < INF ∧ |(val (below r) : ℝ) / UNIT - r| ≤ 1 / 2 ^ 40 * r := by
  have hU := unit_real_pos
  have hr : 0 < r := lt_of_lt_of_le (by positivity) h1
  obtain ⟨f1, f2⟩ := val_floorMag ⌊r * UNIT⌋₊
  have q1 := Nat.floor_le (a := r * UNIT) (by positivity)
  have q2 := Nat.lt_floor_add_one (r * (UNIT : ℝ))
  have big : 2 ^ 52 ≤ below r := by
    by_contra hlt
    have hv : val (below r + 1) ≤ val (2 ^ 52) := val_le (by omega)
    have e : val (2 ^ 52) = 2 ^ 52 := by decide +kernel
    have h3 : 2 ^ 74 ≤ ⌊r * UNIT⌋₊ := by
      apply Nat.le_floor
      rw [unit_real]
      calc ((2 ^ 74 : Nat) : ℝ) = 1 / 2 ^ 1000 * 2 ^ 1074 := by push_cast; norm_num
        _ ≤ r * 2 ^ 1074 := mul_le_mul_of_nonneg_right h1 (by positivity)
    have h4 : (2 : Nat) ^ 52 < 2 ^ 74 := by decide
    have f2' : ⌊r * UNIT⌋₊ < val (below r + 1) := f2
    omega
  have fin : below r < INF := by
    have hM : 2 ^ 2074 < val INF := by decide +kernel
    apply lt_of_val_lt
    refine lt_of_le_of_lt (le_trans f1 ?_) hM
    have : ((⌊r * UNIT⌋₊ : Nat) : ℝ) ≤ ((2 ^ 2074 : Nat) : ℝ) := by
      refine le_trans q1 ?_
      rw [unit_real]
      calc r * 2 ^ 1074 ≤ 2 ^ 1000 * 2 ^ 1074 := mul_le_mul_of_nonneg_right h2 (by positivity)
        _ = ((2 ^ 2074 : Nat) : ℝ) := by rw [Nat.cast_pow, Nat.cast_ofNat, ← pow_add]
    exact_mod_cast this
  refine ⟨fin, ?_⟩
  have step := val_step big
  have g1 : (val (below r) : ℝ) ≤ r * UNIT := le_trans (by exact_mod_cast f1) q1
  have g2 : r * UNIT ≤ (val (below r + 1) : ℝ) := by
    have : ((⌊r * UNIT⌋₊ + 1 : Nat) : ℝ) ≤ (val (below r + 1) : ℝ) := by exact_mod_cast Nat.succ_le_of_lt f2
    push_cast at this
    linarith
  have g3 : (2 : ℝ) ^ 52 * (val (below r + 1) : ℝ) ≤ (2 ^ 52 + 1) * (val (below r) : ℝ) := by exact_mod_cast step
  have d1 : (val (below r) : ℝ) / UNIT ≤ r := by rw [div_le_iff₀ hU]; exact g1
  have d2 : 2 ^ 52 * r ≤ (2 ^ 52 + 1) * ((val (below r) : ℝ) / UNIT) := by
    rw [← mul_div_assoc, le_div_iff₀ hU]
    nlinarith
  generalize (val (below r) : ℝ) / UNIT = v at d1 d2 ⊢
  rw [abs_le]
  norm_num at d2 ⊢
  constructor <;> linarith

open Classical in
/-- `std::log`, rounded to a neighbouring double between 0 and 1. -/
noncomputable def trueLog (x : Double) : Double :=
  if sign x = false ∧ 0 < mag x ∧ mag x < mag (ofNat 1) then mk true (below (-Real.log (real x))) else unitLog x

open Classical in
/-- `std::pow`, rounded to a neighbouring double for a base from 2^-30 to 1 and an exponent up to 1. -/
noncomputable def truePow (x y : Double) : Double :=
  if sign x = false ∧ 1 / 2 ^ 30 ≤ real x ∧ mag x < mag (ofNat 1) ∧ sign y = false ∧ 0 < mag y ∧ mag y ≤ mag (ofNat 1)
  then mk false (below (real x ^ real y)) else samplePow x y

theorem real_zero : real (ofNat 0) = 0 := by rw [real_ofNat (by norm_num)]; simp

theorem real_one : real (ofNat 1) = 1 := by rw [real_ofNat (by norm_num)]; simp

/-- There are machines with accurate functions that follow Annex F. -/
theorem true_accurate : Accurate trueLog truePow := by
  have hU := unit_real_pos
  have hI : INF < 2 ^ 63 := INF_lt
  refine ⟨?_, ?_⟩
  · intro x h1 h2 h3
    have e : trueLog x = mk true (below (-Real.log (real x))) := by unfold trueLog; rw [if_pos ⟨h1, h2, h3⟩]
    have hx := (real_pos_iff h1).mpr h2
    have top : real x ≤ 1 - 1 / 2 ^ 53 := by
      have hm : mag x ≤ mag (ofNat 1) - 1 := by omega
      have hv : val (mag x) * 2 ^ 53 ≤ (2 ^ 53 - 1) * UNIT := by
        refine le_trans (Nat.mul_le_mul_right _ (val_le hm)) ?_
        decide +kernel
      rw [real_pos_eq h1, div_le_iff₀ hU]
      have hv' : (val (mag x) : ℝ) * 2 ^ 53 ≤ (2 ^ 53 - 1) * UNIT := by
        have := (Nat.cast_le (α := ℝ)).mpr hv
        rw [Nat.cast_mul, Nat.cast_mul] at this
        norm_num at this ⊢
        exact this
      norm_num at hv' ⊢
      linarith
    have low : 1 / 2 ^ 1074 ≤ real x := by
      rw [real_pos_eq h1, ← unit_real]
      apply div_le_div_of_nonneg_right _ hU.le
      have : val 0 < val (mag x) := val_lt h2
      exact_mod_cast (by omega : 1 ≤ val (mag x))
    have l1 : 1 / 2 ^ 1000 ≤ -Real.log (real x) := by
      have := Real.log_le_sub_one_of_pos hx
      have h4 : (1 : ℝ) / 2 ^ 1000 ≤ 1 / 2 ^ 53 := div_le_div_of_nonneg_left (by norm_num) (by positivity) (pow_le_pow_right₀ (by norm_num) (by norm_num))
      linarith
    have l2 : -Real.log (real x) ≤ 2 ^ 1000 := by
      have := Real.log_le_log (by positivity) low
      rw [one_div, Real.log_inv, Real.log_pow] at this
      have h5 := log_two_le
      have h6 : (2 : ℝ) ^ 20 ≤ 2 ^ 1000 := pow_le_pow_right₀ (by norm_num) (by norm_num)
      have h7 : -Real.log (real x) ≤ 2 ^ 20 := by
        push_cast at this
        norm_num at this ⊢
        linarith
      linarith
    obtain ⟨b1, b2⟩ := below_close l1 l2
    have hb : below (-Real.log (real x)) < 2 ^ 63 := by omega
    refine ⟨by rw [e, mag_mk _ hb]; exact b1, ?_⟩
    have er : real (trueLog x) = -((val (below (-Real.log (real x))) : ℝ) / UNIT) := by
      rw [e, real_neg_eq (sign_mk _ hb), mag_mk _ hb]
    have hneg : |Real.log (real x)| = -Real.log (real x) := abs_of_neg (by
      have : (0 : ℝ) < 1 / 2 ^ 1000 := by positivity
      linarith)
    rw [er, hneg, ← abs_neg]
    refine le_trans (le_of_eq ?_) b2
    congr 1
    ring
  · intro x y h1 h2 h3 h4 h5 h6
    have e : truePow x y = mk false (below (real x ^ real y)) := by unfold truePow; rw [if_pos ⟨h1, h2, h3, h4, h5, h6⟩]
    have hx : 0 < real x := lt_of_lt_of_le (by positivity) h2
    have hx1 : real x < 1 := by rw [← real_one, real_lt_iff h1 (sign_ofNat 1)]; exact h3
    have hy : 0 < real y := (real_pos_iff h4).mpr h5
    have hy1 : real y ≤ 1 := by rw [← real_one, ← not_lt, real_lt_iff (sign_ofNat 1) h4]; omega
    have l1 : 1 / 2 ^ 1000 ≤ real x ^ real y := by
      have : real x ≤ real x ^ real y := by
        have := Real.rpow_le_rpow_of_exponent_ge hx hx1.le hy1
        rwa [Real.rpow_one] at this
      have h8 : (1 : ℝ) / 2 ^ 1000 ≤ 1 / 2 ^ 30 := div_le_div_of_nonneg_left (by norm_num) (by positivity) (pow_le_pow_right₀ (by norm_num) (by norm_num))
      linarith
    have l2 : real x ^ real y ≤ 2 ^ 1000 :=
      le_trans (Real.rpow_le_one hx.le hx1.le hy.le) (one_le_pow₀ (by norm_num))
    obtain ⟨b1, b2⟩ := below_close l1 l2
    have hb : below (real x ^ real y) < 2 ^ 63 := by omega
    refine ⟨by rw [e, mag_mk _ hb]; exact b1, ?_⟩
    rw [e, real_mk_false hb]
    exact b2

theorem true_annexF : AnnexF trueLog truePow := by
  have hl : ∀ x, ¬(sign x = false ∧ 0 < mag x ∧ mag x < mag (ofNat 1)) → trueLog x = unitLog x := fun x h => by unfold trueLog; rw [if_neg h]
  have hp : ∀ x y, ¬(1 / 2 ^ 30 ≤ real x ∧ mag x < mag (ofNat 1)) → truePow x y = samplePow x y := fun x y h => by
    unfold truePow; rw [if_neg (fun h' => h ⟨h'.2.1, h'.2.2.1⟩)]
  refine ⟨?_, ?_, ?_, ?_, ?_⟩
  · intro y; rw [hp _ _ (fun h => Nat.lt_irrefl _ h.2)]; exact unit_annexF.pow_one y
  · intro y a b c
    rw [hp _ _ (fun h => by
      have := h.1
      rw [real_zero] at this
      norm_num at this)]
    exact unit_annexF.pow_zero y a b c
  · rw [hl _ (fun h => Nat.lt_irrefl _ h.2.2)]; exact unit_annexF.log_one
  · rw [hl _ (fun h => by have := h.2.1; revert this; decide +kernel)]; exact unit_annexF.log_zero
  · intro x a b c; rw [hl _ (fun h => by rw [a] at h; exact absurd h.1 (by decide))]; exact unit_annexF.log_neg x a b c

/-- A consumer on such a machine. -/
noncomputable def trueEnv : CCfg := { sampleCCfg with libm := Libm.ieee trueLog truePow }

/-- Non-vacuity for C97: the default options work there, and so do a million subscriptions with the probability one half. -/
example : ∃ s, Cons.construct trueEnv [] .default = .ok s ∧ CanSubscribe (ConsOptions.default.cfg trueEnv []) s :=
  c97_default true_accurate trueEnv rfl []

theorem real_half : real 0x3FE0000000000000#64 = 1 / 2 := by
  have hU := unit_real_pos
  rw [real_pos_eq (by decide +kernel), div_eq_div_iff hU.ne' (by norm_num)]
  have : val (mag 0x3FE0000000000000#64) * 2 = 1 * UNIT := by decide +kernel
  exact_mod_cast this

theorem real_three_quarters : real 0x3FE8000000000000#64 = 3 / 4 := by
  have hU := unit_real_pos
  rw [real_pos_eq (by decide +kernel), div_eq_div_iff hU.ne' (by norm_num)]
  have : val (mag 0x3FE8000000000000#64) * 4 = 3 * UNIT := by decide +kernel
  exact_mod_cast this

theorem real_small : real 0x3E10000000000000#64 = 1 / 1073741824 := by
  have hU := unit_real_pos
  rw [real_pos_eq (by decide +kernel), div_eq_div_iff hU.ne' (by norm_num)]
  have : val (mag 0x3E10000000000000#64) * 1073741824 = 1 * UNIT := by decide +kernel
  generalize val (mag 0x3E10000000000000#64) = v at this ⊢
  generalize UNIT = u at this ⊢
  have h := congrArg (Nat.cast : Nat → ℝ) this
  rw [Nat.cast_mul, Nat.cast_mul] at h
  rw [Nat.cast_one] at h
  rw [← h]
  norm_num

def millionOptions : ConsOptions := ⟨1000000, 0x3FE0000000000000#64, 1000, 1000⟩
def manyOptions : ConsOptions := ⟨4000000000, 0x3E10000000000000#64, 1000, 1000⟩
def singleOptions : ConsOptions := ⟨1, 0x3FE8000000000000#64, 1000, 1000⟩

example : ∃ s, Cons.construct trueEnv [] millionOptions = .ok s ∧ CanSubscribe (millionOptions.cfg trueEnv []) s := by
  have e : real millionOptions.bfFalsePositive = 1 / 2 := real_half
  have c : (millionOptions.bfCount : ℝ) = 1000000 := by simp [millionOptions]
  refine c97_range_partial true_accurate trueEnv rfl [] millionOptions (by decide +kernel) ?_ ?_ (by decide) ?_
  · rw [e]; norm_num
  · rw [e]
  · rw [e, c]; norm_num

/-- … four thousand million subscriptions with the probability 2^-30 make the constructor undefined … -/
example : Cons.construct trueEnv [] manyOptions = .ub .floatCast := by
  have e : real manyOptions.bfFalsePositive = 1 / 2 ^ 30 := real_small.trans (by norm_num)
  have c : (manyOptions.bfCount : ℝ) = 4000000000 := by simp [manyOptions]
  refine c97_false_many true_accurate trueEnv rfl [] manyOptions (by decide +kernel) ?_ ?_ (by decide) (by decide) ?_
  · rw [e]
  · rw [e]; norm_num
  · rw [e, c, one_div, Real.log_inv, Real.log_pow]
    have : (1 : ℝ) / 2 ≤ Real.log 2 := by
      have := Real.one_sub_inv_le_log_of_pos (show (0 : ℝ) < 2 by norm_num)
      norm_num at this ⊢
      linarith
    push_cast
    linarith

/-- … and one subscription with the probability 0.75 gets no table. -/
example : ∃ s, Cons.construct trueEnv [] singleOptions = .ok s ∧ NoTable s := by
  have e : real singleOptions.bfFalsePositive = 3 / 4 := real_three_quarters
  refine c97_false_single true_accurate trueEnv rfl [] singleOptions (by decide +kernel) ?_ ?_ rfl
  · rw [e]; norm_num
  · rw [e]; norm_num

end PSync
