import Verif.Proofs.ConsumerName
import Verif.Props.InterestSafe
import Verif.Proofs.Fetchable
import Verif.Spec.Served
/-!
Property C96: which consumers a producer can serve.
-/
namespace PSync
open Spec Ieee

/-! ### The probability that is transmitted -/

theorem below_thousandth (log : Double → Double) (pow : Double → Double → Double) {p : Double} (h : BelowThousandth p) :
    (Libm.ieee log pow).toThousandths p = some 0 := by
  obtain ⟨h1, d, hd, h2⟩ := h
  rw [isThousandths_iff (by decide)] at hd
  subst hd
  have e : mag (mk false (gotMag 1)) = gotMag 1 := by decide +kernel
  rw [e] at h2
  have h3 : mag p ≤ gotMag 1 - 1 := by omega
  have h4 : gotMag 1 - 1 ≤ mag (ofNat 1) := by decide +kernel
  obtain ⟨h5, _⟩ := toThousandths_eq log pow h1 (Nat.le_trans h3 h4)
  have h6 : sentMag (gotMag 1 - 1) = 0 := by decide +kernel
  have h7 := sentMag_mono h3
  rw [h5]
  congr 1
  omega

/-! ### What a producer has in its store -/

/-- A stored packet of a producer is a hello reply, or its name begins with a sync Interest whose filter could be built. -/
theorem stored_name {cfg : Cfg} {P : Part} (hP : Part.Reach cfg P) {d : Data} (hd : d ∈ P.pub.store) :
    (∃ r, d.name = cfg.syncPrefix ++ HELLO :: r) ∨ ∃ key bf t r, SyncFields cfg key bf t ∧ d.name = key ++ r := by
  rcases (Part.reach_micro hP).traced.store d hd with h | ⟨b, m, name, v, buf, fr, _, h1, h2⟩
  · simp [SegPub.empty] at h
  · obtain ⟨i, _, hn, _⟩ := segmentData_mem h2
    have hn' : ∃ r, d.name = name ++ r := ⟨_, by rw [hn, Name.appendVersion, List.append_assoc]⟩
    obtain ⟨r, hr⟩ := hn'
    cases h1 with
    | hello c _ => exact .inl ⟨c :: r, by rw [hr]; simp⟩
    | asked n key bf iblt diff content c _ h _ _ _ _ _ => exact .inr ⟨key, bf, iblt, c :: r, h, by rw [hr]; simp⟩
    | parked p x key bf iblt diff sub c _ h _ _ _ _ _ => exact .inr ⟨key, bf, iblt, c :: r, h, by rw [hr]; simp⟩

/-- An Interest with the probability number 0 is not answered from the store. -/
theorem zero_not_stored {log : Double → Double} {pow : Double → Double → Double} (hf : AnnexF log pow) {cfg : Cfg}
    (hl : cfg.libm = Libm.ieee log pow) {P : Part} (hP : Part.Reach cfg P) {c1 c2 c3 c4 : Component} {count : Nat}
    (h1 : readNni c1.value = some count) (h2 : readNni c2.value = some 0) (hc : count % 2 ^ 32 ≠ 0) :
    P.pub.replyFromStore (cfg.syncPrefix ++ [SYNC, c1, c2, c3, c4]) = none := by
  cases hx : P.pub.replyFromStore (cfg.syncPrefix ++ [SYNC, c1, c2, c3, c4]) with
  | none => rfl
  | some d =>
    exfalso
    obtain ⟨hm, hp, _⟩ := storeFind_some hx
    rw [List.isPrefixOf_iff_prefix] at hp
    obtain ⟨r0, hp⟩ := hp
    rcases stored_name hP hm with ⟨r, hr⟩ | ⟨key, bf, t, r, ⟨b1, b2, b3, b4, cnt, th, rfl, k1, k2, k3, _⟩, hr⟩
    · rw [hr, List.append_assoc, List.append_cancel_left_eq] at hp
      simp only [List.cons_append, List.cons.injEq] at hp
      exact absurd hp.1 (by decide)
    · rw [hr, List.append_assoc, List.append_assoc, List.append_cancel_left_eq] at hp
      simp only [List.cons_append, List.cons.injEq] at hp
      obtain ⟨_, rfl, rfl, rfl, _⟩ := hp
      rw [h1] at k1; rw [h2] at k2
      cases k1; cases k2
      have := c17_false_zero hf cfg.extraSalt (count % 2 ^ 32) (by omega) (by omega) c3
      rw [hl, show count % 4294967296 = count % 2 ^ 32 from rfl, this] at k3
      cases k3

/-! ### C96 -/

/-- What the constructor of a consumer rejects (with an exception): no expected elements, a negative probability, an infinite one. -/
theorem c96_rejects (log : Double → Double) (pow : Double → Double → Double) (cc : CCfg) (h : cc.libm = Libm.ieee log pow) :
    (∃ e, Cons.init cc = .throw e) ↔
      cc.bfCount = 0 ∨ mag cc.bfFpp = INF ∨ (sign cc.bfFpp = true ∧ 0 < mag cc.bfFpp ∧ mag cc.bfFpp < INF) := by
  have hinv : (Libm.ieee log pow).invalidProb cc.bfFpp = true ↔
      mag cc.bfFpp = INF ∨ (sign cc.bfFpp = true ∧ 0 < mag cc.bfFpp ∧ mag cc.bfFpp < INF) := by
    have hz : mag (0#64) = 0 := rfl
    have hs : sign (0#64) = false := rfl
    have hi : ¬ (0 : Nat) > INF := by decide
    show (lt cc.bfFpp 0#64 || decide (mag cc.bfFpp = INF)) = true ↔ _
    unfold lt
    rw [hz, hs]
    by_cases h1 : mag cc.bfFpp > INF
    · simp [h1]; omega
    · rw [if_neg (by omega)]
      cases hsn : sign cc.bfFpp
      · simp
      · simp only [Nat.lt_irrefl, or_false, Bool.or_eq_true, decide_eq_true_eq, true_and]
        have : 0 < INF := by decide
        omega
  unfold Cons.init Bloom.new optimalParams
  rw [h]
  by_cases h0 : cc.bfCount = 0 ∨ (Libm.ieee log pow).invalidProb cc.bfFpp = true
  · rw [if_pos h0]
    constructor
    · intro _
      rcases h0 with h0 | h0
      · exact .inl h0
      · exact .inr (hinv.mp h0)
    · intro _
      exact ⟨.bloom, rfl⟩
  · rw [if_neg h0]
    constructor
    · rintro ⟨e, he⟩
      split at he <;> cases he
    · rintro (h1 | h1)
      · exact absurd (.inl h1) h0
      · exact absurd (.inr (hinv.mpr h1)) h0

example : ¬ (0x3F50624DD2F1A9FC#64 = (0#64 : Double)) ∧ sign (0x3F50624DD2F1A9FC#64) = false ∧ mag (0x3F50624DD2F1A9FC#64) ≠ INF := by decide

/-- C96 is false, for every consumer whose probability is below 0.001 (the constructor accepts it, and the consumer itself works
with it): every sync Interest it ever sends makes every producer that receives it convert minus infinity to an integer. -/
theorem c96_false_interest {log : Double → Double} {pow : Double → Double → Double} (hf : AnnexF log pow) (pc : Cfg) (cc : CCfg)
    (hg : SameGroup log pow pc cc) (hb : BelowThousandth cc.bfFpp) (s : Cons) (hs : Cons.Reach cc s) (P : Part) (hP : Part.Reach pc P)
    (n : Name) (lt : Nat) (hn : Out.interest n lt ∈ s.log) (i : Interest) (hi : i.name = n) :
    n = cc.syncPrefix ++ [HELLO] ∨ Part.step pc P (.recvInterest i) = .ub .floatCast := by
  obtain ⟨bf0, hb0, hsh⟩ := Cons.reach_asking hs
  rcases hsh.log n lt hn with h | ⟨bf, t, c, _, ht, rfl⟩
  · exact .inl h
  · right
    unfold freshFilter Bloom.new at hb0
    simp only [Res.bind_eq_ok, Res.ok.injEq] at hb0
    obtain ⟨kt, h1, rfl⟩ := hb0
    simp only at ht hi
    have hc : cc.bfCount ≠ 0 := by
      intro h0
      unfold optimalParams at h1
      rw [if_pos (.inl h0)] at h1
      cases h1
    have hcc := hg.count
    rw [hg.consumer, below_thousandth log pow hb] at ht
    cases ht
    rw [hg.syncPrefix] at hi
    have r1 : readNni (nniBytes cc.bfCount) = some cc.bfCount := readNni_nniBytes _ (by omega)
    have hc2 : cc.bfCount % 2 ^ 32 ≠ 0 := by omega
    refine c88_false_probability hf pc hg.producer P i cc.bfCount ⟨8, bf.bits⟩ c ?_ ⟨_, _, .inl hi, r1, by decide⟩ hc2
    rw [hi]
    exact zero_not_stored hf hg.producer hP r1 (by decide) hc2

/-- C96, partial: a consumer whose probability is a literal k/1000 and whose filter has a whole number of bytes never makes a
producer fail with an Interest that carries its current IBF.  Missing: the other probabilities, for which the claim is false. -/
theorem c96_served_partial (log : Double → Double) (pow : Double → Double → Double) (pc : Cfg) (cc : CCfg)
    (hwf : pc.WF) (he : 0 < pc.expected) (hfu : 0 < pc.fuel) (hg : SameGroup log pow pc cc) (k : Nat) (hk : k ≤ 1000) (hd : IsThousandths k cc.bfFpp)
    (bf0 : Bloom) (hb : freshFilter cc = .ok bf0) (hz : SizedBf bf0) (s : Cons) (hs : Cons.Reach cc s) (P : Part) (hP : Part.Reach pc P)
    (n ask : Name) (lt : Nat) (c : Component) (hn : Out.interest n lt ∈ s.log) (hc : n = ask ++ [c])
    (hcur : P.base.iblt.toComponent pc.ibltCodec = .ok c) (i : Interest) (hi : i.name = n) :
    ¬ Fails (Part.step pc P (.recvInterest i)) := by
  rw [c88_producer_exact pc hwf]
  rintro ⟨_, count, th, c3, c4, ⟨c1, c2, ha, h1, h2⟩, hfail⟩
  obtain ⟨bf0', hb0', hsh⟩ := Cons.reach_asking hs
  rw [hb] at hb0'
  cases hb0'
  rcases hsh.log n lt hn with h | ⟨bf, t, c', hbf, ht, h⟩
  · rw [hi, h, hg.syncPrefix] at ha
    rcases ha with ha | ⟨v, g, ha⟩
    · have := congrArg List.length ha
      simp at this
    · have := congrArg List.length ha
      simp at this
  · rw [hi, h, hg.syncPrefix] at ha
    rcases ha with ha | ⟨v, g, ha⟩
    · simp only [List.append_cancel_left_eq, List.cons.injEq, and_true, true_and] at ha
      obtain ⟨rfl, rfl, rfl, rfl⟩ := ha
      have hcc : c = c' := by
        rw [hc] at h
        have := congrArg List.getLast? h
        simpa using this
      subst hcc
      have hnew := hb
      unfold freshFilter at hnew
      have hproj : bf0.projected = cc.bfCount ∧ bf0.fpp = cc.bfFpp := by
        unfold Bloom.new at hnew
        simp only [Res.bind_eq_ok, Res.ok.injEq] at hnew
        obtain ⟨kt, _, rfl⟩ := hnew
        exact ⟨rfl, rfl⟩
      have hcnt := hg.count
      rw [hproj.1, readNni_nniBytes _ (by omega)] at h1
      cases h1
      obtain ⟨e1, e2⟩ := c87_literal log pow k hk _ hd
      rw [hproj.2, hg.consumer, e1] at ht
      cases ht
      rw [readNni_nniBytes _ (by omega)] at h2
      cases h2
      have hof : Bloom.ofComponent pc.libm pc.extraSalt (cc.bfCount % 2 ^ 32) (pc.libm.ofThousandths k) ⟨8, bf.bits⟩ = .ok bf := by
        unfold Bloom.ofComponent
        rw [Nat.mod_eq_of_lt hcnt, hg.producer, e2, ← hg.extraSalt, ← hg.consumer, hnew, Res.ok_bind, if_neg]
        · rw [← hbf.1]
        · simp only [not_not]
          rw [hbf.2]
          have := hz.2
          omega
      rcases hfail with hfail | ⟨bf', t', k1, k2, hfail⟩
      · exact fails_of_ok ⟨_, hof⟩ hfail
      · rw [hof] at k1
        cases k1
        have hr := (Part.reach_steps hP).ranged he (Base.ranged_new pc)
        obtain ⟨cmp, a1, a2⟩ := c02_round_trip pc.ibltCodec hwf.iblt_lossless pc.expected P.base.iblt (by rw [nCells_eq]; exact hr.1) hr.2
        rw [hcur] at a1
        cases a1
        rw [k2] at a2
        cases a2
        obtain ⟨f, hf⟩ : ∃ f, pc.fuel = f + 1 := ⟨pc.fuel - 1, by omega⟩
        unfold AnswerFails at hfail
        rw [hf, diff_self] at hfail
        rcases hfail with hfail | ⟨d, hd', _, x, hx, _⟩
        · exact fails_ok _ hfail
        ·
          cases hd'
          cases hx
    · have := congrArg List.length ha
      simp at this

/-- A logarithm with the values that the C standard fixes, and -1 between 0 and 1. -/
def unitLog (x : Double) : Double :=
  if sign x = true ∧ 0 < mag x then nan else if x = ofNat 0 then mk true INF else if x = ofNat 1 then ofNat 0
  else if mag x < mag (ofNat 1) then neg (ofNat 1) else ofNat 1

theorem unit_annexF : AnnexF unitLog samplePow := by
  refine ⟨fun _ => rfl, fun _ _ _ _ => rfl, by decide +kernel, by decide +kernel, ?_⟩
  intro x h1 h2 _
  unfold unitLog
  rw [if_pos ⟨h1, h2⟩]
  decide +kernel

/-- A producer and a consumer with the probability 0.0005. -/
def unitCfg : Cfg := { sampleCfg with libm := Libm.ieee unitLog samplePow }
def fineCCfg : CCfg := { sampleCCfg with bfFpp := 0x3F40624DD2F1A9FC#64, libm := Libm.ieee unitLog samplePow }

theorem fine_group : SameGroup unitLog samplePow unitCfg fineCCfg := ⟨rfl, rfl, rfl, rfl, by decide⟩

theorem fine_below : BelowThousandth fineCCfg.bfFpp :=
  ⟨by decide +kernel, 0x3F50624DD2F1A9FC#64, (isThousandths_iff (by decide) _).mpr (by decide +kernel), by decide +kernel⟩

/-- With the probability `p` the first quotient is 6. -/
def log1 (p : Double) : Bool :=
  !(Libm.ieee unitLog samplePow).invalidProb p && decide (unitLog (oneMinus p) = neg (ofNat 1)) &&
    decide (lt ((Libm.ieee unitLog samplePow).currM 6 p 1) (mk false INF) = true) &&
    decide ((Libm.ieee unitLog samplePow).toU32 ((Libm.ieee unitLog samplePow).currM 6 p 1) = some 6)

/-- The numerators grow with k. -/
theorem numerator_mono {j k count : Nat} (hjk : j ≤ k) (hk : k < 1000) (hc2 : count < 2 ^ 32) :
    mag (mul (neg (ofNat j)) (ofNat count)) ≤ mag (mul (neg (ofNat k)) (ofNat count)) := by
  have key : ∀ i, i < 1000 → mag (mul (neg (ofNat i)) (ofNat count)) = round (i * UNIT * (count * UNIT)) UNIT := by
    intro i hi
    have k1 := ofNat_lt_INF (n := i) (by omega)
    have c1 := ofNat_lt_INF (n := count) (by omega)
    have hlt := INF_lt
    have e2 : mag (neg (ofNat i)) = mag (ofNat i) := by
      unfold neg; rw [mag_mk _ (by omega)]
    unfold mul
    simp only
    rw [e2, if_neg (by omega), if_neg (by omega), mag_mk_round, val_ofNat (by omega), val_ofNat (by omega)]
  rw [key j (by omega), key k hk]
  apply round_mono UNIT_pos UNIT_pos
  exact Nat.mul_le_mul_right _ (Nat.mul_le_mul_right _ (Nat.mul_le_mul_right _ hjk))

/-- With a denominator that does not depend on k, the first quotient is the smallest. -/
theorem search_first {log : Double → Double} {pow : Double → Double → Double} {count : Nat} {p D : Double} (hc : 1 ≤ count) (hc2 : count < 2 ^ 32)
    (hD : ∀ k, log (oneMinus (pow p (div (ofNat 1) (ofNat k)))) = D) (h1 : sign D = true) (h2 : 0 < mag D) (h3 : mag D < INF)
    (h4 : lt ((Libm.ieee log pow).currM count p 1) (mk false INF) = true) :
    (Libm.ieee log pow).search count p = ((Libm.ieee log pow).currM count p 1, 1) := by
  have key : ∀ k, 1 ≤ k → k < 1000 → sign ((Libm.ieee log pow).currM count p k) = false ∧
      mag ((Libm.ieee log pow).currM count p k) = round (val (mag (mul (neg (ofNat k)) (ofNat count))) * UNIT) (val (mag D)) := by
    intro k hk1 hk2
    obtain ⟨a1, a2, a3⟩ := numerator_of hk1 hk2 hc hc2
    have e : (Libm.ieee log pow).currM count p k = mk false (round (val (mag (mul (neg (ofNat k)) (ofNat count))) * UNIT) (val (mag D))) := by
      show div (mul (neg (ofNat k)) (ofNat count)) (log (oneMinus (pow p (div (ofNat 1) (ofNat k))))) = _
      rw [hD]
      unfold div
      simp only
      rw [a1, h1, if_neg (by omega), if_neg (by omega), if_neg (by omega), if_neg (by omega)]
      rfl
    rw [e]
    exact ⟨sign_mk_round _ _ _, mag_mk_round _ _ _⟩
  have hv : 0 < val (mag D) := by
    have := val_lt h2
    omega
  have hnot : ∀ k, 1 ≤ k → k < 1000 → lt ((Libm.ieee log pow).currM count p k) ((Libm.ieee log pow).currM count p 1) = false := by
    intro k hk1 hk2
    obtain ⟨b1, b2⟩ := key k hk1 hk2
    obtain ⟨b3, b4⟩ := key 1 (by decide) (by decide)
    have hle : mag ((Libm.ieee log pow).currM count p 1) ≤ mag ((Libm.ieee log pow).currM count p k) := by
      rw [b2, b4]
      apply round_mono hv hv
      exact Nat.mul_le_mul_right _ (Nat.mul_le_mul_right _ (val_le (numerator_mono hk1 hk2 hc2)))
    unfold lt
    rw [b1, b3]
    split
    · rfl
    · simp only [decide_eq_false_iff_not]
      omega
  unfold Libm.search
  rw [show (999 : Nat) = 998 + 1 from rfl, List.range'_succ, Libm.searchFrom,
    if_pos (show (Libm.ieee log pow).lt _ (Libm.ieee log pow).inf = true from h4)]
  have hl : ∀ k ∈ List.range' (1 + 1) 998, 1 ≤ k ∧ k < 1000 := by
    intro k hk
    rw [List.mem_range'_1] at hk
    omega
  generalize List.range' (1 + 1) 998 = l at hl
  induction l with
  | nil => rfl
  | cons k l ih =>
    have hk := hl k (by simp)
    rw [Libm.searchFrom, if_neg (by rw [show (Libm.ieee log pow).lt = lt from rfl, hnot k hk.1 hk.2]; simp),
      ih (fun k hk => hl k (by simp [hk]))]

theorem unit_new (p : Double) (h1 : log1 p = true) (extra : Nat → U32) : Bloom.new (Libm.ieee unitLog samplePow) extra 6 p
    = .ok ⟨mixSalts (predefSalt.take 1), [0#8], 8, 6, p⟩ := by
  simp only [log1, Bool.and_eq_true, decide_eq_true_eq, Bool.not_eq_true'] at h1
  obtain ⟨⟨⟨a1, a2⟩, a3⟩, a4⟩ := h1
  unfold Bloom.new optimalParams
  rw [if_neg (by simp [a1]), search_first (D := neg (ofNat 1)) (by decide) (by decide) (fun _ => a2) (by decide +kernel) (by decide +kernel)
    (by decide +kernel) a3, a4]
  simp only [Res.ok_bind, show bloomNumHashes 1 = 1 from rfl, show bloomTableSize 6 = 8 from rfl]
  rw [show genSalts extra 1 = mixSalts (predefSalt.take 1) from if_pos (by decide)]
  rfl

/-- Non-vacuity for `c96_false_interest`: the consumer is constructed, receives the producer's hello reply and sends a sync Interest. -/
theorem fine_run : ∃ s, Cons.Reach fineCCfg s ∧ Out.interest (nameOf [115] ++ [SYNC, ⟨8, [6]⟩, ⟨8, [0]⟩, ⟨8, [0]⟩, ⟨8, List.replicate 72 0⟩]) 1000 ∈ s.log := by
  let s0 : Cons := ⟨[], [], [], .blob, ⟨mixSalts (predefSalt.take 1), [0#8], 8, 6, 0x3F40624DD2F1A9FC#64⟩, [], [], none, none, [], 0, 0, [], 0⟩
  have h0 : Cons.init fineCCfg = .ok s0 := by
    unfold Cons.init
    rw [show Bloom.new fineCCfg.libm fineCCfg.extraSalt fineCCfg.bfCount fineCCfg.bfFpp = _ from unit_new _ (by decide +kernel) _]
    rfl
  obtain ⟨s, h1, h2⟩ : ∃ s, Cons.run fineCCfg s0 [.call .sendHello,
        .helloSegment (ibfData (nameOf [115] ++ [HELLO]) .blob []), .helloComplete (encodeNames []) [.sendSync] []] = .ok s ∧
      s.log.drop 2 = [.interest (nameOf [115] ++ [SYNC, ⟨8, [6]⟩, ⟨8, [0]⟩, ⟨8, [0]⟩, ⟨8, List.replicate 72 0⟩]) 1000] :=
    Res.of_get? (f := fun s : Cons => s.log.drop 2) (by decide +kernel)
  exact ⟨s, ⟨s0, _, h0, h1⟩, List.mem_of_mem_drop (h2 ▸ List.mem_singleton_self _)⟩

/-- C96 is false as stated. -/
theorem c96_false : ¬ Spec.EveryConsumerServed := by
  intro h
  obtain ⟨s, hs, hn⟩ := fine_run
  have hP : Part.Reach unitCfg (Part.init unitCfg) := ⟨[], rfl⟩
  refine h _ _ unit_annexF unitCfg fineCCfg ⟨sampleCfg_wf.1, sampleCfg_wf.2, sampleCfg_wf.3, sampleCfg_wf.4⟩ (by decide) (by decide) fine_group
    s (Part.init unitCfg) _ (nameOf [115] ++ [SYNC, ⟨8, [6]⟩, ⟨8, [0]⟩, ⟨8, [0]⟩]) 1000 ⟨8, List.replicate 72 0⟩ hs hP hn (by simp) (by decide +kernel) ?_
  rcases c96_false_interest unit_annexF unitCfg fineCCfg fine_group fine_below s hs _ hP _ _ hn ⟨_, 1000, 0⟩ rfl with h | h
  · exact absurd h (by decide)
  · exact .inl ⟨_, h⟩

/-- Non-vacuity for `c96_served_partial`: the default probability, with the same producer. -/
example : ∃ bf0, freshFilter { fineCCfg with bfFpp := 0x3F50624DD2F1A9FC#64 } = .ok bf0 ∧ SizedBf bf0 :=
  ⟨_, unit_new _ (by decide +kernel) _, by decide, by decide⟩

end PSync
