import Verif.Spec.ConsumerOptions
import Verif.Props.Served
/-!
C97: what the constructor of a consumer makes of its arguments.
-/
set_option exponentiation.threshold 3000

namespace PSync
open Ieee Spec

/-! ### The smallest size -/

theorem lt_trans' {x y z : Double} (h1 : lt x y = true) (h2 : lt y z = true) : lt x z = true := by
  unfold lt at *
  split at h1
  · cases h1
  · split at h2
    · cases h2
    · rw [if_neg (by omega)]
      cases hx : sign x <;> cases hy : sign y <;> cases hz : sign z <;> simp only [hx, hy, hz, decide_eq_true_eq, reduceCtorEq] at * <;> omega

theorem searchFrom_least (log : Double → Double) (pow : Double → Double → Double) (count : Nat) (p : Double) (l : List Nat) :
    ∀ (m : Double) (best : Nat), mag m ≤ INF →
      let x := ((Libm.ieee log pow).searchFrom count p l m best).1
      mag x ≤ INF ∧ (x = m ∨ (lt x m = true ∧ ∃ k ∈ l, x = (Libm.ieee log pow).currM count p k)) ∧
        ∀ k ∈ l, lt ((Libm.ieee log pow).currM count p k) x = false := by
  induction l with
  | nil => intro m best hm; exact ⟨hm, .inl rfl, by simp⟩
  | cons k l ih =>
    intro m best hm
    simp only
    rw [Libm.searchFrom]
    split
    · rename_i hlt
      have hlt : lt ((Libm.ieee log pow).currM count p k) m = true := hlt
      have hk : mag ((Libm.ieee log pow).currM count p k) ≤ INF := by
        unfold lt at hlt
        split at hlt
        · cases hlt
        · omega
      obtain ⟨a1, a2, a3⟩ := ih _ k hk
      refine ⟨a1, .inr ?_, ?_⟩
      · rcases a2 with a2 | ⟨a2, j, hj, a4⟩
        · rw [a2]; exact ⟨hlt, k, by simp, rfl⟩
        · exact ⟨lt_trans' a2 hlt, j, by simp [hj], a4⟩
      · intro j hj
        rcases List.mem_cons.mp hj with rfl | hj
        · rcases a2 with a2 | ⟨a2, _⟩
          · rw [a2]
            unfold lt
            cases sign ((Libm.ieee log pow).currM count p j) <;> simp
          · cases h : lt ((Libm.ieee log pow).currM count p j) _ with
            | false => rfl
            | true =>
              have := lt_trans' h a2
              unfold lt at this
              cases hs : sign ((Libm.ieee log pow).currM count p j) <;> simp [hs] at this
        · exact a3 j hj
    · rename_i hlt
      have hlt : lt ((Libm.ieee log pow).currM count p k) m = false := Bool.eq_false_iff.mpr hlt
      obtain ⟨a1, a2, a3⟩ := ih _ best hm
      refine ⟨a1, ?_, ?_⟩
      · rcases a2 with a2 | ⟨a2, j, hj, a4⟩
        · exact .inl a2
        · exact .inr ⟨a2, j, by simp [hj], a4⟩
      · intro j hj
        rcases List.mem_cons.mp hj with rfl | hj
        · rcases a2 with a2 | ⟨a2, _⟩
          · rw [a2]; exact hlt
          · cases h : lt ((Libm.ieee log pow).currM count p j) _ with
            | false => rfl
            | true => rw [lt_trans' h a2] at hlt; cases hlt
        · exact a3 j hj

/-- The search finds the smallest size. -/
theorem search_least (log : Double → Double) (pow : Double → Double → Double) (count : Nat) (p : Double) :
    LeastSize log pow count p ((Libm.ieee log pow).search count p).1 := by
  obtain ⟨a1, a2, a3⟩ := searchFrom_least log pow count p (List.range' 1 999) (mk false INF) 0 (by decide +kernel)
  refine ⟨?_, fun k h1 h2 => a3 k (by rw [List.mem_range'_1]; omega)⟩
  rcases a2 with a2 | ⟨_, k, hk, a4⟩
  · exact .inl a2
  · rw [List.mem_range'_1] at hk
    exact .inr ⟨k, by omega, by omega, a4, a1⟩

/-- Two smallest sizes are converted to the same number. -/
theorem leastSize_toU32 {log : Double → Double} {pow : Double → Double → Double} {count : Nat} {p x y : Double}
    (hx : LeastSize log pow count p x) (hy : LeastSize log pow count p y) :
    (Libm.ieee log pow).toU32 x = (Libm.ieee log pow).toU32 y := by
  have i1 : mag (mk false INF) = INF := mag_mk _ INF_lt
  have i2 : sign (mk false INF) = false := sign_mk _ INF_lt
  have not_lt : ∀ {x y : Double}, LeastSize log pow count p x → LeastSize log pow count p y → lt x y = false ∧ mag x ≤ INF := by
    intro x y hx hy
    rcases hx.found with rfl | ⟨k, k1, k2, rfl, h⟩
    · rw [i1]
      refine ⟨?_, Nat.le_refl _⟩
      unfold lt
      rw [i1, i2]
      split
      · rfl
      · cases sign y <;> simp
        omega
    · exact ⟨hy.least k k1 k2, h⟩
  obtain ⟨a1, a2⟩ := not_lt hx hy
  obtain ⟨b1, b2⟩ := not_lt hy hx
  unfold lt at a1 b1
  rw [if_neg (by omega)] at a1 b1
  show toUnsigned (2 ^ 32) x = toUnsigned (2 ^ 32) y
  cases sx : sign x <;> cases sy : sign y <;> simp only [sx, sy, decide_eq_false_iff_not] at a1 b1
  · have : x = y := eq_of_sign_mag (by rw [sx, sy]) (by omega)
    rw [this]
  · have : mag x = 0 ∧ mag y = 0 := by omega
    unfold toUnsigned
    rw [sx, sy, this.1, this.2, show val 0 = 0 from rfl]
    simp [UNIT_pos]
  · have : mag x = 0 ∧ mag y = 0 := by omega
    unfold toUnsigned
    rw [sx, sy, this.1, this.2, show val 0 = 0 from rfl]
    simp [UNIT_pos]
  · have : x = y := eq_of_sign_mag (by rw [sx, sy]) (by omega)
    rw [this]

/-! ### Exactly what happens -/

theorem canSubscribe_of {cfg : CCfg} {bf0 : Bloom} (hb : freshFilter cfg = .ok bf0) (hz : SizedBf bf0) {s0 : Cons} (h0 : Cons.init cfg = .ok s0) :
    CanSubscribe cfg s0 := by
  intro ops s hr p
  have hm : Cons.Moment cfg s := Cons.Reach.moment ⟨s0, ops, h0, hr⟩
  refine ⟨fun seq cb => ?_, ?_⟩
  · obtain ⟨r, s', h1, h2, _, h3, _⟩ := c47_add_partial cfg bf0 hb hz s hm p seq cb
    refine ⟨r, s', h1, fun hn => ?_⟩
    have hr := h2.mpr hn
    exact ⟨hr, by rw [h3, hr]; simp⟩
  · obtain ⟨r, s', h1, _, h2, _⟩ := c47_remove cfg bf0 hb hz s hm p
    exact ⟨r, s', h1, by rw [h2]; simp⟩

/-- C97, exactly what becomes of the options, by the smallest computed size: the constructor throws, or its behaviour is undefined, or
the consumer cannot subscribe to anything, or it can. -/
theorem c97_exact (log : Double → Double) (pow : Double → Double → Double) (env : CCfg) (hl : env.libm = Libm.ieee log pow)
    (syncPrefix : Name) (o : ConsOptions) (x : Double) (hx : LeastSize log pow o.bfCount o.bfFalsePositive x) :
    if o.bfCount = 0 ∨ (Libm.ieee log pow).invalidProb o.bfFalsePositive = true then
      Cons.construct env syncPrefix o = .throw .bloom
    else match (Libm.ieee log pow).toU32 x with
      | none => Cons.construct env syncPrefix o = .ub .floatCast
      | some m => ∃ s, Cons.construct env syncPrefix o = .ok s ∧
          if 1 ≤ m ∧ m ≤ 4294967288 then CanSubscribe (o.cfg env syncPrefix) s else NoTable s := by
  have hx := leastSize_toU32 hx (search_least log pow o.bfCount o.bfFalsePositive)
  split
  · rename_i hin
    unfold Cons.construct Cons.init Bloom.new optimalParams
    simp only [ConsOptions.cfg, hl]
    rw [if_pos hin]
    rfl
  · rename_i hin
    split
    · rename_i hm
      rw [hm] at hx
      unfold Cons.construct Cons.init Bloom.new optimalParams
      simp only [ConsOptions.cfg, hl]
      rw [if_neg hin, ← hx]
      rfl
    · rename_i m hm
      rw [hm] at hx
      have hlt := ieee_toU32_lt log pow _ _ hm
      have hb : freshFilter (o.cfg env syncPrefix) = .ok ⟨genSalts env.extraSalt (bloomNumHashes ((Libm.ieee log pow).search o.bfCount o.bfFalsePositive).2),
          List.replicate (bloomTableSize m / 8) 0#8, bloomTableSize m, o.bfCount, o.bfFalsePositive⟩ := by
        unfold freshFilter Bloom.new optimalParams
        simp only [ConsOptions.cfg, hl]
        rw [if_neg hin, ← hx]
        rfl
      have h0 : ∃ s, Cons.init (o.cfg env syncPrefix) = .ok s ∧ s.prefixes = [] ∧ freshFilter (o.cfg env syncPrefix) = .ok s.bloom := by
        unfold Cons.init
        unfold freshFilter at hb ⊢
        rw [hb]
        exact ⟨_, rfl, rfl, rfl⟩
      obtain ⟨s, h0, h1, h2⟩ := h0
      refine ⟨s, h0, ?_⟩
      split
      · rename_i hr
        obtain ⟨a, b⟩ := bloomTableSize_of hr.1 hr.2
        exact canSubscribe_of hb ⟨a, by simpa using b⟩ h0
      · rename_i hr
        have hts := bloomTableSize_bad (m := m) (by omega) (by omega)
        rw [hts] at hb
        rw [hb] at h2
        intro p seq cb
        unfold Cons.addSubscription
        rw [h1]
        simp only [NMap.find, Bloom.insert]
        injection h2 with h2
        rw [← h2]
        simp only
        cases hs : genSalts env.extraSalt (bloomNumHashes ((Libm.ieee log pow).search o.bfCount o.bfFalsePositive).2) with
        | nil => exact absurd hs (genSalts_ne (by unfold bloomNumHashes; split <;> omega))
        | cons a l => simp [foldRes, Bloom.setBit]

/-- The deprecated constructor of a consumer is the constructor with the same options. -/
theorem c97_old (env : CCfg) (syncPrefix : Name) (count : Nat) (hc : count < 4294967296) (p : Double) (hello sync : Nat) :
    Cons.constructOld env syncPrefix count p hello sync = Cons.construct env syncPrefix ⟨count, p, hello, sync⟩ := by
  unfold Cons.constructOld
  rw [Nat.mod_eq_of_lt hc]

/-! ### Options that do not work -/

theorem least_exists (log : Double → Double) (pow : Double → Double → Double) (count : Nat) (p : Double) : ∃ x, LeastSize log pow count p x :=
  ⟨_, search_least log pow count p⟩

theorem ieee_valid_zero {log : Double → Double} {pow : Double → Double → Double} {p : Double} (h1 : sign p = false ∨ mag p = 0) (h2 : mag p < INF) :
    (Libm.ieee log pow).invalidProb p = false := by
  rcases h1 with h1 | h1
  · exact ieee_valid h1 h2
  · show (lt p 0#64 || decide (mag p = INF)) = false
    unfold lt
    rw [sign_zero, mag_zero, if_neg (by omega), h1]
    cases sign p <;> decide

theorem div_one_one : div (ofNat 1) (ofNat 1) = ofNat 1 := by decide +kernel

theorem round_near_one : round (2 ^ 1074 - 2 ^ 1020) 1 = mag (ofNat 1) := by decide +kernel

theorem oneMinus_small {p : Double} (h1 : sign p = false ∨ mag p = 0) (h2 : val (mag p) ≤ 2 ^ 1020) : oneMinus p = ofNat 1 := by
  have hU := UNIT_eq
  have hlt : val (mag p) < UNIT := by
    rw [hU]
    exact Nat.lt_of_le_of_lt h2 (Nat.pow_lt_pow_right (by decide) (by decide))
  have hi : mag p < INF := by
    apply lt_of_val_lt
    rw [val_INF]
    exact Nat.lt_of_le_of_lt h2 (Nat.pow_lt_pow_right (by decide) (by decide))
  have h1u : round UNIT 1 = mag (ofNat 1) := by
    unfold ofNat
    rw [mag_mk_round, Nat.one_mul]
  unfold oneMinus
  rw [if_neg (by omega), if_neg (by omega)]
  cases hs : sign p with
  | true =>
    have h0 : mag p = 0 := by simpa [hs] using h1
    rw [if_pos rfl, h0, show val 0 = 0 from rfl, Nat.add_zero, h1u, ← ofNat_one_eq]
  | false =>
    rw [if_neg (by simp), if_pos (by omega)]
    have e : round (UNIT - val (mag p)) 1 = mag (ofNat 1) := by
      apply Nat.le_antisymm
      · rw [← h1u]
        apply round_mono (by decide) (by decide)
        omega
      · rw [← round_near_one]
        apply round_mono (by decide) (by decide)
        rw [hU] at *
        omega
    rw [e, ← ofNat_one_eq]

/-- C97 is false for tiny probabilities: up to 2^-54 (about 5.5e-17) every number of subscriptions makes the behaviour of the constructor
undefined, if `std::pow(p, 1.0)` is `p`.  (For k = 1, `1.0 - p` is rounded to 1, the logarithm is 0, the size minus infinity.) -/
theorem c97_false_tiny {log : Double → Double} {pow : Double → Double → Double} (hf : AnnexF log pow) (env : CCfg)
    (hl : env.libm = Libm.ieee log pow) (syncPrefix : Name) (o : ConsOptions) (hc : 1 ≤ o.bfCount) (hc2 : o.bfCount < 2 ^ 32)
    (h1 : sign o.bfFalsePositive = false ∨ mag o.bfFalsePositive = 0) (h2 : 2 ^ 54 * val (mag o.bfFalsePositive) ≤ UNIT)
    (hp : pow o.bfFalsePositive (ofNat 1) = o.bfFalsePositive) :
    Cons.construct env syncPrefix o = .ub .floatCast := by
  have h2 : val (mag o.bfFalsePositive) ≤ 2 ^ 1020 := by
    rw [UNIT_eq, show (1074 : Nat) = 54 + 1020 from rfl, Nat.pow_add] at h2
    exact Nat.le_of_mul_le_mul_left h2 (Nat.two_pow_pos _)
  have hi : mag o.bfFalsePositive < INF := by
    apply lt_of_val_lt
    rw [val_INF]
    exact Nat.lt_of_le_of_lt h2 (Nat.pow_lt_pow_right (by decide) (by decide))
  obtain ⟨x, hx⟩ := least_exists log pow o.bfCount o.bfFalsePositive
  have h := c97_exact log pow env hl syncPrefix o x hx
  rw [if_neg (by rw [ieee_valid_zero h1 hi]; simp; omega)] at h
  obtain ⟨n1, n2, n3⟩ := numerator_of (k := 1) (by decide) (by decide) hc hc2
  have e : (Libm.ieee log pow).currM o.bfCount o.bfFalsePositive 1 = mk true INF := by
    show div _ (log (oneMinus (pow _ (div (ofNat 1) (ofNat 1))))) = _
    rw [div_one_one, hp, oneMinus_small h1 h2, hf.log_one]
    have z : mag (ofNat 0) = 0 := by rw [ofNat_zero]; rfl
    unfold div
    simp only
    have i0 : 0 < INF := by decide
    rw [z, sign_ofNat, n1, if_neg (by omega), if_neg (by omega), if_neg (by omega), if_pos rfl, if_neg (by omega)]
    rfl
  have hle := hx.least 1 (by decide) (by decide)
  rw [e] at hle
  have i1 : mag (mk false INF) = INF := mag_mk _ INF_lt
  have j1 : mag (mk true INF) = INF := mag_mk _ INF_lt
  have j2 : sign (mk true INF) = true := sign_mk _ INF_lt
  have hxi : mag x ≤ INF := by
    rcases hx.found with rfl | ⟨_, _, _, _, h⟩
    · rw [i1]
    · exact h
  have hxe : (Libm.ieee log pow).toU32 x = none := by
    have h0 : 0 < INF := by decide
    unfold lt at hle
    rw [j1, j2, if_neg (by omega)] at hle
    show toUnsigned _ x = none
    unfold toUnsigned
    rw [if_pos]
    cases hs : sign x <;> simp only [hs, decide_eq_false_iff_not] at hle <;> omega
  rw [hxe] at h
  exact h

/-- C97 is false for probabilities of 1 and more: no consumer can subscribe. -/
theorem c97_false_large {log : Double → Double} {pow : Double → Double → Double} (hf : AnnexF log pow) (hw : PowAtLeastOne pow) (env : CCfg)
    (hl : env.libm = Libm.ieee log pow) (syncPrefix : Name) (o : ConsOptions) (hc : 1 ≤ o.bfCount) (hc2 : o.bfCount < 2 ^ 32)
    (h1 : sign o.bfFalsePositive = false) (h2 : mag (ofNat 1) ≤ mag o.bfFalsePositive) (h3 : mag o.bfFalsePositive < INF) :
    Cons.construct env syncPrefix o = .ub .floatCast ∨ ∃ s, Cons.construct env syncPrefix o = .ok s ∧ NoTable s := by
  have h := c97_exact log pow env hl syncPrefix o _ (search_least log pow _ _)
  rw [if_neg (by rw [ieee_valid h1 h3]; simp; omega)] at h
  have c1 : toUnsigned (2 ^ 32) 0#64 = some 0 := by decide +kernel
  have c2 : toUnsigned (2 ^ 32) (mk false INF) = none := by decide +kernel
  rcases ieee_search (fun k hk hk2 => ieee_above hf hw h1 h2 h3 hc hc2 hk hk2) with e | e
  · rw [e, show (Libm.ieee log pow).toU32 0#64 = some 0 from c1] at h
    obtain ⟨s, a, b⟩ := h
    exact .inr ⟨s, a, by simpa using b⟩
  · rw [e, show (Libm.ieee log pow).toU32 (mk false INF) = none from c2] at h
    exact .inl h

/-- C97 is false for a NaN: it is not refused, and the behaviour of the constructor is undefined. -/
theorem c97_false_nan {log : Double → Double} {pow : Double → Double → Double} (hn : NanIn log pow) (env : CCfg)
    (hl : env.libm = Libm.ieee log pow) (syncPrefix : Name) (o : ConsOptions) (hc : 1 ≤ o.bfCount) (hp : INF < mag o.bfFalsePositive) :
    Cons.construct env syncPrefix o = .ub .floatCast := by
  obtain ⟨x, hx⟩ := least_exists log pow o.bfCount o.bfFalsePositive
  have h := c97_exact log pow env hl syncPrefix o x hx
  have hv : (Libm.ieee log pow).invalidProb o.bfFalsePositive = false := by
    show (lt o.bfFalsePositive 0#64 || decide (mag o.bfFalsePositive = INF)) = false
    unfold lt
    rw [if_pos (.inl hp), decide_eq_false (by omega)]
    rfl
  rw [if_neg (by rw [hv]; simp; omega)] at h
  have c2 : toUnsigned (2 ^ 32) (mk false INF) = none := by decide +kernel
  have hxe : x = mk false INF := by
    rcases hx.found with e | ⟨k, k1, k2, e, hle⟩
    · exact e
    · exfalso
      obtain ⟨x1, x2, x3⟩ := exponent_of k1 k2
      have hom : INF < mag (oneMinus (pow o.bfFalsePositive (div (ofNat 1) (ofNat k)))) := by
        unfold oneMinus
        rw [if_pos (hn.pow _ _ hp x2)]
        decide +kernel
      have hnan : INF < mag ((Libm.ieee log pow).currM o.bfCount o.bfFalsePositive k) := by
        show INF < mag (div _ (log (oneMinus (pow _ (div (ofNat 1) (ofNat k))))))
        unfold div
        simp only
        rw [if_pos (.inr (hn.log _ hom))]
        decide +kernel
      rw [← e] at hnan
      omega
  rw [hxe, show (Libm.ieee log pow).toU32 (mk false INF) = none from c2] at h
  exact h

theorem round_ten_elevenths : round (10 * UNIT) 11 < mag (ofNat 1) := by decide +kernel

/-- C97 is false for a probability that is large in comparison with the number of subscriptions: if the computed logarithm of 1 - p is
-1.1 times the number of subscriptions or less (as for one subscription and p = 0.7), no consumer can subscribe.  (For k = 1, the size is
less than one bit.) -/
theorem c97_false_coarse (log : Double → Double) (pow : Double → Double → Double) (env : CCfg) (hl : env.libm = Libm.ieee log pow)
    (syncPrefix : Name) (o : ConsOptions) (hc : 1 ≤ o.bfCount) (hc2 : o.bfCount < 2 ^ 32)
    (h1 : sign o.bfFalsePositive = false) (h2 : mag o.bfFalsePositive < INF) (hp : pow o.bfFalsePositive (ofNat 1) = o.bfFalsePositive)
    (h3 : sign (log (oneMinus o.bfFalsePositive)) = true) (h4 : mag (log (oneMinus o.bfFalsePositive)) < INF)
    (h5 : 11 * (o.bfCount * UNIT) ≤ 10 * val (mag (log (oneMinus o.bfFalsePositive)))) :
    Cons.construct env syncPrefix o = .ub .floatCast ∨ ∃ s, Cons.construct env syncPrefix o = .ok s ∧ NoTable s := by
  obtain ⟨x, hx⟩ := least_exists log pow o.bfCount o.bfFalsePositive
  have h := c97_exact log pow env hl syncPrefix o x hx
  rw [if_neg (by rw [ieee_valid h1 h2]; simp; omega)] at h
  have hle := hx.least 1 (by decide) (by decide)
  obtain ⟨n1, n2, n3⟩ := numerator_of (k := 1) (by decide) (by decide) hc hc2
  have hD : 0 < val (mag (log (oneMinus o.bfFalsePositive))) := by
    have := Nat.mul_pos hc UNIT_pos
    omega
  have hD0 : mag (log (oneMinus o.bfFalsePositive)) ≠ 0 := by
    intro e
    rw [e, show val 0 = 0 from rfl] at hD
    omega
  have hnum : val (mag (mul (neg (ofNat 1)) (ofNat o.bfCount))) = o.bfCount * UNIT := by
    have e2 : mag (neg (ofNat 1)) = mag (ofNat 1) := by decide +kernel
    have k1 : mag (ofNat 1) < INF := ofNat_lt_INF (by decide)
    have c1 : mag (ofNat o.bfCount) < INF := ofNat_lt_INF (by omega)
    unfold mul
    simp only
    rw [e2, if_neg (by omega), if_neg (by omega), mag_mk_round, val_ofNat (by decide), val_ofNat (by omega)]
    have he := round_exact (b := UNIT) (m := mag (ofNat o.bfCount)) UNIT_pos (Nat.le_of_lt c1)
    rw [val_ofNat (by omega)] at he
    rw [Nat.one_mul, he, val_ofNat (by omega)]
  have e : (Libm.ieee log pow).currM o.bfCount o.bfFalsePositive 1
      = mk false (round (o.bfCount * UNIT * UNIT) (val (mag (log (oneMinus o.bfFalsePositive))))) := by
    show div _ (log (oneMinus (pow _ (div (ofNat 1) (ofNat 1))))) = _
    rw [div_one_one, hp]
    unfold div
    simp only
    rw [n1, h3, if_neg (by omega), if_neg (by omega), if_neg (by omega), if_neg hD0, hnum]
    rfl
  have hr : round (o.bfCount * UNIT * UNIT) (val (mag (log (oneMinus o.bfFalsePositive)))) < mag (ofNat 1) := by
    refine Nat.lt_of_le_of_lt (round_mono hD (by decide) ?_) round_ten_elevenths
    have := Nat.mul_le_mul_right UNIT h5
    calc o.bfCount * UNIT * UNIT * 11 = 11 * (o.bfCount * UNIT) * UNIT := by ac_rfl
      _ ≤ 10 * val (mag (log (oneMinus o.bfFalsePositive))) * UNIT := this
      _ = 10 * UNIT * val (mag (log (oneMinus o.bfFalsePositive))) := by ac_rfl
  have i1 : mag (mk false INF) = INF := mag_mk _ INF_lt
  have i2 : mag (ofNat 1) < INF := ofNat_lt_INF (by decide)
  have hxi : mag x ≤ INF := by
    rcases hx.found with rfl | ⟨_, _, _, _, h⟩
    · rw [i1]
    · exact h
  rw [e] at hle
  unfold lt at hle
  rw [mag_mk_round, sign_mk_round, if_neg (by omega)] at hle
  have hxe : (Libm.ieee log pow).toU32 x = none ∨ (Libm.ieee log pow).toU32 x = some 0 := by
    show toUnsigned _ x = none ∨ toUnsigned _ x = some 0
    unfold toUnsigned
    split
    · exact .inl rfl
    · cases hs : sign x with
      | true =>
        simp only [if_true]
        split
        · exact .inr rfl
        · exact .inl rfl
      | false =>
        simp only [hs, decide_eq_false_iff_not] at hle
        have hv : val (mag x) < UNIT := by
          have := val_lt (show mag x < mag (ofNat 1) by omega)
          rwa [val_ofNat (by decide), Nat.one_mul] at this
        rw [if_neg (by simp), Nat.div_eq_of_lt hv]
        exact .inr (if_pos (by decide))
  rcases hxe with hxe | hxe
  · rw [hxe] at h; exact .inl h
  · rw [hxe] at h
    obtain ⟨s, a, b⟩ := h
    exact .inr ⟨s, a, by simpa using b⟩

/-! ### Samples -/

/-- The probability 2^-60. -/
def tinyOptions : ConsOptions := ⟨6, mk false ((1023 - 60) * 2 ^ 52), 1000, 1000⟩

/-- Non-vacuity for `c97_false_tiny`. -/
theorem tiny_undefined (syncPrefix : Name) : Cons.construct fineCCfg syncPrefix tinyOptions = .ub .floatCast :=
  c97_false_tiny unit_annexF fineCCfg rfl syncPrefix tinyOptions (by decide) (by decide) (.inl (by decide +kernel)) (by decide +kernel) rfl

/-- C97 is false. -/
theorem c97_false : ¬ Spec.EveryConsumerOptionWorks := by
  intro h
  rcases h _ _ unit_annexF fineCCfg rfl [] tinyOptions (by decide) with h | ⟨s, h, _⟩ <;> rw [tiny_undefined] at h <;> cases h

/-- A logarithm with log 0.3 = -1.2. -/
def coarseLog (x : Double) : Double := if INF < mag x then x else if x = oneMinus 0x3FE6666666666666#64 then neg (div (ofNat 6) (ofNat 5)) else unitLog x

/-- Non-vacuity for `c97_false_coarse`: one subscription, probability 0.7. -/
example : Cons.construct { fineCCfg with libm := Libm.ieee coarseLog samplePow } [] ⟨1, 0x3FE6666666666666#64, 1000, 1000⟩ = .ub .floatCast ∨
    ∃ s, Cons.construct { fineCCfg with libm := Libm.ieee coarseLog samplePow } [] ⟨1, 0x3FE6666666666666#64, 1000, 1000⟩ = .ok s ∧ NoTable s :=
  c97_false_coarse coarseLog samplePow _ rfl [] _ (by decide) (by decide) (by decide +kernel) (by decide +kernel) rfl (by decide +kernel)
    (by decide +kernel) (by decide +kernel)

/-- Non-vacuity for `c97_false_large`: probability 1, and probability 2. -/
example : (Cons.construct fineCCfg [] ⟨6, ofNat 1, 1000, 1000⟩ = .ub .floatCast ∨ ∃ s, Cons.construct fineCCfg [] ⟨6, ofNat 1, 1000, 1000⟩ = .ok s ∧ NoTable s) ∧
    (Cons.construct fineCCfg [] ⟨6, ofNat 2, 1000, 1000⟩ = .ub .floatCast ∨ ∃ s, Cons.construct fineCCfg [] ⟨6, ofNat 2, 1000, 1000⟩ = .ok s ∧ NoTable s) := by
  have hw : PowAtLeastOne samplePow := fun x y h1 h2 h3 _ _ _ => ⟨h1, h2, Nat.le_of_lt h3⟩
  exact ⟨c97_false_large unit_annexF hw fineCCfg rfl [] _ (by decide) (by decide) (by decide +kernel) (by decide +kernel) (by decide +kernel),
    c97_false_large unit_annexF hw fineCCfg rfl [] _ (by decide) (by decide) (by decide +kernel) (by decide +kernel) (by decide +kernel)⟩

/-- Non-vacuity for `c97_false_nan`. -/
example : Cons.construct { fineCCfg with libm := Libm.ieee coarseLog samplePow } [] ⟨6, nan, 1000, 1000⟩ = .ub .floatCast :=
  c97_false_nan (log := coarseLog) (pow := samplePow) ⟨fun x h => by unfold coarseLog; rw [if_pos h]; exact h, fun x _ h _ => h⟩ _ rfl [] _
    (by decide) (by decide +kernel)

/-- Non-vacuity for `c97_exact`: the options are refused, and the default options work. -/
example : Cons.construct fineCCfg [] ⟨0, 0x3F50624DD2F1A9FC#64, 1000, 1000⟩ = .throw .bloom ∧
    Cons.construct fineCCfg [] ⟨6, neg (ofNat 1), 1000, 1000⟩ = .throw .bloom ∧
    ∃ s, Cons.construct fineCCfg [] ConsOptions.default = .ok s ∧ CanSubscribe (ConsOptions.default.cfg fineCCfg []) s := by
  refine ⟨by decide +kernel, by decide +kernel, ?_⟩
  have hb : freshFilter (ConsOptions.default.cfg fineCCfg []) = _ := unit_new _ (by decide +kernel) _
  have h0 : ∃ s, Cons.construct fineCCfg [] ConsOptions.default = .ok s := by
    unfold Cons.construct Cons.init
    unfold freshFilter at hb
    rw [hb]
    exact ⟨_, rfl⟩
  obtain ⟨s, h0⟩ := h0
  exact ⟨s, h0, canSubscribe_of hb ⟨by decide, by decide⟩ h0⟩

end PSync
