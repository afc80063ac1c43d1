import Verif.Model.Ieee
/-!
Facts about the binary64 model: the values grow with the magnitude, and `round` gives the nearest one.
-/
set_option exponentiation.threshold 3000

namespace PSync
namespace Ieee

theorem val_small {m : Nat} (h : m < 2 ^ 52) : val m = m := by
  unfold val
  rw [if_pos (by omega)]

/-- Exponent and significand with the hidden bit. -/
theorem val_normal {e x : Nat} (h1 : 2 ^ 52 ≤ x) (h2 : x ≤ 2 ^ 53) : val (e * 2 ^ 52 + x) = x * 2 ^ e := by
  unfold val
  rw [if_neg (by omega)]
  rcases Nat.lt_or_ge x (2 ^ 53) with h | h
  · have e1 : (e * 2 ^ 52 + x) / 2 ^ 52 = e + 1 := by omega
    have e2 : (e * 2 ^ 52 + x) % 2 ^ 52 = x - 2 ^ 52 := by omega
    rw [e1, e2, Nat.add_sub_cancel, show 2 ^ 52 + (x - 2 ^ 52) = x by omega]
  · have ex : x = 2 ^ 53 := by omega
    subst ex
    have e1 : (e * 2 ^ 52 + 2 ^ 53) / 2 ^ 52 = e + 2 := by omega
    have e2 : (e * 2 ^ 52 + 2 ^ 53) % 2 ^ 52 = 0 := by omega
    rw [e1, e2, show e + 2 - 1 = e + 1 by omega, Nat.pow_succ]
    omega

/-- Every magnitude is subnormal or has exponent and significand. -/
theorem mag_cases (m : Nat) : m < 2 ^ 52 ∨ ∃ e x, 2 ^ 52 ≤ x ∧ x < 2 ^ 53 ∧ m = e * 2 ^ 52 + x := by
  by_cases h : m < 2 ^ 52
  · exact .inl h
  · exact .inr ⟨m / 2 ^ 52 - 1, 2 ^ 52 + m % 2 ^ 52, by omega, by omega, by omega⟩

theorem val_lt_succ (m : Nat) : val m < val (m + 1) := by
  rcases mag_cases m with h | ⟨e, x, h1, h2, rfl⟩
  · rw [val_small h]
    rcases Nat.lt_or_ge (m + 1) (2 ^ 52) with h' | h'
    · rw [val_small h']; omega
    · have e1 : val (0 * 2 ^ 52 + (m + 1)) = (m + 1) * 2 ^ 0 := val_normal (by omega) (by omega)
      rw [Nat.zero_mul, Nat.zero_add] at e1
      rw [e1]; omega
  · rw [Nat.add_assoc, val_normal h1 (by omega), val_normal (by omega) (by omega)]
    exact Nat.mul_lt_mul_of_pos_right (by omega) (Nat.two_pow_pos e)

theorem val_lt {m n : Nat} (h : m < n) : val m < val n := by
  induction n with
  | zero => omega
  | succ n ih =>
    rcases Nat.lt_or_ge m n with h' | h'
    · exact Nat.lt_trans (ih h') (val_lt_succ n)
    · rw [show m = n by omega]; exact val_lt_succ n

theorem val_le {m n : Nat} (h : m ≤ n) : val m ≤ val n := by
  rcases Nat.lt_or_ge m n with h' | h'
  · exact Nat.le_of_lt (val_lt h')
  · rw [show m = n by omega]

theorem le_of_val_le {m n : Nat} (h : val m ≤ val n) : m ≤ n := by
  by_cases h' : m ≤ n
  · exact h'
  · have := val_lt (Nat.lt_of_not_le h'); omega

theorem lt_of_val_lt {m n : Nat} (h : val m < val n) : m < n := by
  by_cases h' : m < n
  · exact h'
  · have := val_le (Nat.le_of_not_lt h'); omega

theorem val_inj {m n : Nat} (h : val m = val n) : m = n :=
  Nat.le_antisymm (le_of_val_le (Nat.le_of_eq h)) (le_of_val_le (Nat.le_of_eq h.symm))

theorem val_floorMag (q : Nat) : val (floorMag q) ≤ q ∧ q < val (floorMag q + 1) := by
  unfold floorMag
  split
  · rename_i h
    rw [val_small h]
    refine ⟨Nat.le_refl _, ?_⟩
    have := val_lt_succ q
    rw [val_small h] at this
    exact this
  · rename_i h
    have hq : q ≠ 0 := by omega
    have h1 : 2 ^ Nat.log2 q ≤ q := Nat.log2_self_le hq
    have h2 : q < 2 ^ (Nat.log2 q + 1) := Nat.lt_log2_self
    have hl : 52 ≤ Nat.log2 q := (Nat.le_log2 hq).mpr (by omega)
    generalize hE : Nat.log2 q - 52 = E
    have e1 : Nat.log2 q = E + 52 := by omega
    rw [e1] at h1 h2
    have hp := Nat.two_pow_pos E
    have x1 : 2 ^ 52 ≤ q / 2 ^ E := by
      rw [Nat.le_div_iff_mul_le hp, ← Nat.pow_add, Nat.add_comm]; exact h1
    have x2 : q / 2 ^ E < 2 ^ 53 := by
      rw [Nat.div_lt_iff_lt_mul hp, ← Nat.pow_add, show 53 + E = E + 52 + 1 by omega]; exact h2
    rw [Nat.add_assoc, val_normal x1 (by omega), val_normal (by omega) (by omega)]
    exact ⟨Nat.div_mul_le_self q _, Nat.lt_mul_of_div_lt (Nat.lt_succ_self _) hp⟩

theorem floorMag_val (m : Nat) : floorMag (val m) = m := by
  have h := val_floorMag (val m)
  have h1 := le_of_val_le h.1
  have h2 := lt_of_val_lt h.2
  omega

/-- The two candidates of `round`. -/
theorem round_floor {a b : Nat} (hb : 0 < b) :
    b * val (floorMag (a / b)) ≤ a ∧ a < b * val (floorMag (a / b) + 1) := by
  have h := val_floorMag (a / b)
  constructor
  · exact Nat.le_trans (Nat.mul_le_mul_left b h.1) (Nat.mul_div_le a b)
  · have := Nat.lt_mul_of_div_lt h.2 hb
    rwa [Nat.mul_comm] at this

/-- `round` without the overflow. -/
def near (a b : Nat) : Nat :=
  let f := floorMag (a / b)
  let mid := b * (val f + val (f + 1))
  if 2 * a < mid then f else if mid < 2 * a then f + 1 else if f % 2 = 0 then f else f + 1

theorem round_eq (a b : Nat) : round a b = min INF (near a b) := rfl

/-- `near` is one of two neighbours: the lower one if the middle is not below the number, and so on. -/
theorem near_cases {a b : Nat} (hb : 0 < b) : ∃ f, b * val f ≤ a ∧ a < b * val (f + 1) ∧
    ((near a b = f ∧ 2 * a ≤ b * (val f + val (f + 1))) ∨ (near a b = f + 1 ∧ b * (val f + val (f + 1)) ≤ 2 * a)) := by
  obtain ⟨h1, h2⟩ := round_floor (a := a) hb
  refine ⟨_, h1, h2, ?_⟩
  unfold near
  simp only
  split
  · exact .inl ⟨rfl, by omega⟩
  · split
    · exact .inr ⟨rfl, by omega⟩
    · split
      · exact .inl ⟨rfl, by omega⟩
      · exact .inr ⟨rfl, by omega⟩

/-- `near a b` is a nearest magnitude to a / b: no other is nearer. -/
theorem near_nearest {a b : Nat} (hb : 0 < b) (m : Nat) :
    b * val (near a b) - a + (a - b * val (near a b)) ≤ b * val m - a + (a - b * val m) := by
  obtain ⟨f, h1, h2, h3⟩ := near_cases (a := a) hb
  rw [Nat.mul_add] at h3
  rcases Nat.lt_or_ge f m with h | h
  · have := Nat.mul_le_mul_left b (val_le (show f + 1 ≤ m from h))
    rcases h3 with ⟨e, h3⟩ | ⟨e, h3⟩ <;> rw [e] <;> omega
  · have := Nat.mul_le_mul_left b (val_le h)
    rcases h3 with ⟨e, h3⟩ | ⟨e, h3⟩ <;> rw [e] <;> omega

/-- Rounding is monotone. -/
theorem near_mono {a b c d : Nat} (hb : 0 < b) (hd : 0 < d) (h : a * d ≤ c * b) : near a b ≤ near c d := by
  have hf : floorMag (a / b) ≤ floorMag (c / d) := by
    have h1 := (val_floorMag (a / b)).1
    have h2 := (val_floorMag (c / d)).2
    have hq : a / b ≤ c / d := by
      rw [Nat.le_div_iff_mul_le hd]
      have := Nat.mul_le_mul_right d (Nat.div_mul_le_self a b)
      have h3 : a / b * d * b ≤ c * b := by
        rw [Nat.mul_right_comm]; exact Nat.le_trans this h
      exact Nat.le_of_mul_le_mul_right h3 hb
    have := lt_of_val_lt (Nat.lt_of_le_of_lt h1 (Nat.lt_of_le_of_lt hq h2))
    omega
  unfold near
  simp only
  rcases Nat.lt_or_ge (floorMag (a / b)) (floorMag (c / d)) with hlt | hge
  · have x1 : ∀ (p q r : Prop) [Decidable p] [Decidable q] [Decidable r] (f : Nat),
        (if p then f else if q then f + 1 else if r then f else f + 1) ≤ f + 1 ∧
        f ≤ (if p then f else if q then f + 1 else if r then f else f + 1) := by
      intro p q r _ _ _ f
      split
      · omega
      · split
        · omega
        · split <;> omega
    exact Nat.le_trans (x1 _ _ _ _).1 (Nat.le_trans hlt (x1 _ _ _ _).2)
  · have ef : floorMag (a / b) = floorMag (c / d) := by omega
    rw [ef]
    generalize floorMag (c / d) = f
    generalize val f + val (f + 1) = M
    -- 2a ? bM against 2c ? dM
    have k1 : d * (b * M) ≤ d * (2 * a) → d * M ≤ 2 * c := by
      intro h'
      have : b * (d * M) ≤ b * (2 * c) := by
        calc b * (d * M) = d * (b * M) := by rw [Nat.mul_left_comm]
          _ ≤ d * (2 * a) := h'
          _ = 2 * (a * d) := by rw [Nat.mul_left_comm, Nat.mul_comm d a]
          _ ≤ 2 * (c * b) := by omega
          _ = b * (2 * c) := by rw [Nat.mul_left_comm b, Nat.mul_comm b c]
      exact Nat.le_of_mul_le_mul_left this hb
    have k2 : d * (b * M) < d * (2 * a) → d * M < 2 * c := by
      intro h'
      have : b * (d * M) < b * (2 * c) := by
        calc b * (d * M) = d * (b * M) := by rw [Nat.mul_left_comm]
          _ < d * (2 * a) := h'
          _ = 2 * (a * d) := by rw [Nat.mul_left_comm, Nat.mul_comm d a]
          _ ≤ 2 * (c * b) := by omega
          _ = b * (2 * c) := by rw [Nat.mul_left_comm b, Nat.mul_comm b c]
      exact Nat.lt_of_mul_lt_mul_left this
    have k1' : b * M ≤ 2 * a → d * M ≤ 2 * c := fun h' => k1 (Nat.mul_le_mul_left d h')
    have k2' : b * M < 2 * a → d * M < 2 * c := fun h' => k2 (Nat.mul_lt_mul_of_pos_left h' hd)
    split
    · split
      · omega
      · split
        · omega
        · split <;> omega
    · rename_i h1
      have := k1' (by omega)
      rw [if_neg (show ¬ 2 * c < d * M by omega)]
      split
      · rename_i h2
        rw [if_pos (k2' h2)]
      · split
        · split <;> omega
        · split <;> omega

theorem round_mono {a b c d : Nat} (hb : 0 < b) (hd : 0 < d) (h : a * d ≤ c * b) : round a b ≤ round c d := by
  have := near_mono hb hd h
  rw [round_eq, round_eq]
  omega

/-- A representable number is not changed by rounding. -/
theorem near_exact {b m : Nat} (hb : 0 < b) : near (b * val m) b = m := by
  obtain ⟨f, h1, h2, h3⟩ := near_cases (a := b * val m) hb
  have e1 := le_of_val_le (Nat.le_of_mul_le_mul_left h1 hb)
  have e2 := lt_of_val_lt (Nat.lt_of_mul_lt_mul_left h2)
  have e : f = m := by omega
  subst e
  rcases h3 with ⟨e, _⟩ | ⟨_, h3⟩
  · exact e
  · have := Nat.mul_lt_mul_of_pos_left (val_lt_succ f) hb
    rw [Nat.mul_add] at h3
    omega

theorem round_exact {b m : Nat} (hb : 0 < b) (hm : m ≤ INF) : round (b * val m) b = m := by
  rw [round_eq, near_exact hb]; omega

/-- A number with a significand of at most 53 bits is representable. -/
theorem val_floorMag_exact {n e : Nat} (hn : n < 2 ^ 53) : val (floorMag (n * 2 ^ e)) = n * 2 ^ e := by
  unfold floorMag
  split
  · rename_i h; exact val_small h
  · rename_i h
    have hq : n * 2 ^ e ≠ 0 := by omega
    have h1 : 2 ^ Nat.log2 (n * 2 ^ e) ≤ n * 2 ^ e := Nat.log2_self_le hq
    have h2 : n * 2 ^ e < 2 ^ (Nat.log2 (n * 2 ^ e) + 1) := Nat.lt_log2_self
    have hl : 52 ≤ Nat.log2 (n * 2 ^ e) := (Nat.le_log2 hq).mpr (by omega)
    generalize hE : Nat.log2 (n * 2 ^ e) - 52 = E
    have e1 : Nat.log2 (n * 2 ^ e) = E + 52 := by omega
    rw [e1] at h1 h2
    have hp := Nat.two_pow_pos E
    have x1 : 2 ^ 52 ≤ n * 2 ^ e / 2 ^ E := by
      rw [Nat.le_div_iff_mul_le hp, ← Nat.pow_add, Nat.add_comm]; exact h1
    have x2 : n * 2 ^ e / 2 ^ E < 2 ^ 53 := by
      rw [Nat.div_lt_iff_lt_mul hp, ← Nat.pow_add, show 53 + E = E + 52 + 1 by omega]; exact h2
    rw [val_normal x1 (by omega)]
    apply Nat.div_mul_cancel
    have hEe : E ≤ e := by
      have h3 : n * 2 ^ e < 2 ^ (53 + e) := by
        rw [Nat.pow_add]; exact Nat.mul_lt_mul_of_pos_right hn (Nat.two_pow_pos e)
      have h4 := Nat.lt_of_le_of_lt h1 h3
      have := (Nat.pow_lt_pow_iff_right (by omega : 1 < 2)).mp h4
      omega
    exact Nat.dvd_mul_left_of_dvd (Nat.pow_dvd_pow 2 hEe) n

end Ieee
end PSync

namespace PSync
namespace Ieee

theorem INF_lt : INF < 2 ^ 63 := by decide
theorem UNIT_eq : UNIT = 2 ^ 1074 := by unfold UNIT; rfl
theorem UNIT_pos : 0 < UNIT := by rw [UNIT_eq]; exact Nat.two_pow_pos _
theorem val_INF : val INF = 2 ^ 2098 := by decide +kernel
theorem round_le (a b : Nat) : round a b ≤ INF := by rw [round_eq]; omega

theorem sign_mk (s : Bool) {m : Nat} (h : m < 2 ^ 63) : sign (mk s m) = s := by
  unfold sign mk
  rw [BitVec.toNat_ofNat]
  cases s
  · simp only [Bool.false_eq_true, if_false, decide_eq_false_iff_not]; omega
  · simp only [if_true, decide_eq_true_eq]; omega

theorem mag_mk (s : Bool) {m : Nat} (h : m < 2 ^ 63) : mag (mk s m) = m := by
  unfold mag mk
  rw [BitVec.toNat_ofNat]
  cases s
  · simp only [Bool.false_eq_true, if_false]; omega
  · simp only [if_true]; omega

theorem mk_sign_mag (d : Double) : mk (sign d) (mag d) = d := by
  apply BitVec.eq_of_toNat_eq
  unfold mk sign mag
  rw [BitVec.toNat_ofNat]
  have := d.isLt
  by_cases h : 2 ^ 63 ≤ d.toNat
  · simp only [h, decide_true, if_true]; omega
  · simp only [h, decide_false, Bool.false_eq_true, if_false]; omega

theorem eq_of_sign_mag {x y : Double} (h1 : sign x = sign y) (h2 : mag x = mag y) : x = y := by
  rw [← mk_sign_mag x, ← mk_sign_mag y, h1, h2]

theorem sign_mk_round (s : Bool) (a b : Nat) : sign (mk s (round a b)) = s :=
  sign_mk s (Nat.lt_of_le_of_lt (round_le a b) INF_lt)
theorem mag_mk_round (s : Bool) (a b : Nat) : mag (mk s (round a b)) = round a b :=
  mag_mk s (Nat.lt_of_le_of_lt (round_le a b) INF_lt)

theorem sign_ofNat (n : Nat) : sign (ofNat n) = false := sign_mk_round _ _ _

/-- The magnitude of a number n·2^e of at most 53 significant bits. -/
theorem exact_lt_INF {n e : Nat} (hn : n < 2 ^ 53) (he : e ≤ 2040) : floorMag (n * 2 ^ e) < INF := by
  apply lt_of_val_lt
  rw [val_floorMag_exact hn, val_INF]
  calc n * 2 ^ e < 2 ^ 53 * 2 ^ e := Nat.mul_lt_mul_of_pos_right hn (Nat.two_pow_pos e)
    _ = 2 ^ (53 + e) := by rw [Nat.pow_add]
    _ ≤ 2 ^ 2098 := Nat.pow_le_pow_right (by omega) (by omega)

theorem round_one_exact {n e : Nat} (hn : n < 2 ^ 53) (he : e ≤ 2040) : round (n * 2 ^ e) 1 = floorMag (n * 2 ^ e) := by
  have := round_exact (b := 1) (m := floorMag (n * 2 ^ e)) (by omega) (Nat.le_of_lt (exact_lt_INF hn he))
  rwa [Nat.one_mul, val_floorMag_exact hn] at this

theorem mag_ofNat {n : Nat} (hn : n < 2 ^ 53) : mag (ofNat n) = floorMag (n * UNIT) := by
  unfold ofNat
  rw [mag_mk_round, UNIT_eq]
  exact round_one_exact hn (by omega)

theorem val_ofNat {n : Nat} (hn : n < 2 ^ 53) : val (mag (ofNat n)) = n * UNIT := by
  rw [mag_ofNat hn, UNIT_eq]; exact val_floorMag_exact hn

theorem ofNat_lt_INF {n : Nat} (hn : n < 2 ^ 53) : mag (ofNat n) < INF := by
  rw [mag_ofNat hn, UNIT_eq]; exact exact_lt_INF hn (by omega)

theorem ofNat_pos {n : Nat} (hn : n < 2 ^ 53) (h0 : 0 < n) : 0 < mag (ofNat n) := by
  apply lt_of_val_lt
  rw [val_ofNat hn, val_small (by omega)]
  exact Nat.mul_pos h0 UNIT_pos

end Ieee
end PSync
