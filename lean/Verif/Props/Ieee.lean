import Verif.Proofs.IeeeSize
import Verif.Props.ConsumerWire
/-!
Property C87: probabilities of whole thousandths survive the transmission.  And C17 in IEEE arithmetic.
-/
namespace PSync
open Spec Ieee

/-! ### C87 -/

/-- C87: the literal k/1000, for k up to 1000, is transmitted as k, and the receiver makes the same double from it. -/
theorem c87_literal (log : Double → Double) (pow : Double → Double → Double) (k : Nat) (hk : k ≤ 1000) (d : Double) (hd : IsThousandths k d) :
    (Libm.ieee log pow).toThousandths d = some k ∧ (Libm.ieee log pow).ofThousandths k = d := by
  have e := (isThousandths_iff hk d).mp hd
  have e2 := ofThousandths_eq log pow (k := k) (by omega)
  have hle : mag d ≤ mag (ofNat 1) := by
    rw [e, ← e2, mag_ofThousandths log pow (by omega), ← gotMag_thousand]
    exact gotMag_mono hk
  refine ⟨?_, e2.trans e.symm⟩
  rw [(toThousandths_eq log pow hd.1 hle).1, e, ← e2, mag_ofThousandths log pow (by omega)]
  rw [(roundTrips_le roundTrips_all k hk).1]

/-- C87: a double is the literal k/1000 of exactly one k, and each k has exactly one. -/
theorem c87_unique (k : Nat) (hk : k ≤ 1000) : ∃ d, IsThousandths k d ∧ ∀ d', IsThousandths k d' → d' = d :=
  ⟨mk false (gotMag k), (isThousandths_iff hk _).mpr rfl, fun d' h => (isThousandths_iff hk d').mp h⟩

/-- C87: a consumer whose probability is a literal k/1000 is understood, whatever `std::log` and `std::pow` are: the sync Interest
sent for an IBF component `c` that the producer reads as `t` has the form the producer expects, carries `t`, and a filter that
answers every question as the consumer's own does, so contains every subscribed prefix. -/
theorem c87_interest (log : Double → Double) (pow : Double → Double → Double) (pcfg : Cfg) (ccfg : CCfg) (bf0 : Bloom) (t : Table)
    (c : Component) (s s' : Cons) (n : Name) (lt : Nat) (k : Nat) (hk : k ≤ 1000) (hd : IsThousandths k ccfg.bfFpp)
    (e0 : ccfg.libm = Libm.ieee log pow)
    (e1 : ccfg.syncPrefix = pcfg.syncPrefix) (e2 : ccfg.libm = pcfg.libm) (e3 : ccfg.extraSalt = pcfg.extraSalt)
    (hc : ccfg.bfCount < 2 ^ 32) (hb : freshFilter ccfg = .ok bf0) (hz : SizedBf bf0) (hs : Cons.Reach ccfg s)
    (ht : Table.initialize pcfg.ibltCodec pcfg.expected c = .ok t) (hi : s.iblt = [c])
    (h : s.sendSyncInterest ccfg = .ok s') (hl : s'.log = s.log ++ [.interest n lt]) :
    ∃ bf, SyncFields pcfg n bf t ∧ (∀ q, bf.contains q = s.bloom.contains q) ∧
      ∀ q, s.isSubscribed q = true → bf.contains q = .ok true := by
  obtain ⟨h1, h2⟩ := c87_literal log pow k hk _ hd
  rw [← e0] at h1 h2
  exact c52_format_partial pcfg ccfg bf0 t c s s' n lt e1 e2 e3 hc hb hz hs k h1 (by omega) (by rw [h2]) ht hi h hl

/-- C87, for every other probability from 0 to 1: a number t up to 1000 is transmitted; the probability is below t+1
thousandths, and the one made from t is at most the next double above it; and sending that again changes nothing. -/
theorem c87_range (log : Double → Double) (pow : Double → Double → Double) (p : Double) (h1 : sign p = false) (h2 : mag p ≤ mag (ofNat 1)) :
    ∃ t, t ≤ 1000 ∧ (Libm.ieee log pow).toThousandths p = some t ∧
      (t < 1000 → (Libm.ieee log pow).lt p ((Libm.ieee log pow).ofThousandths (t + 1)) = true) ∧
      mag ((Libm.ieee log pow).ofThousandths t) ≤ mag p + 1 ∧
      (Libm.ieee log pow).toThousandths ((Libm.ieee log pow).ofThousandths t) = some t := by
  obtain ⟨e, hle⟩ := toThousandths_eq log pow h1 h2
  have o1 : mag (ofNat 1) < INF := ofNat_lt_INF (by decide)
  refine ⟨_, hle, e, ?_, ?_, ?_⟩
  · intro ht
    have hg : mag p < gotMag (sentMag (mag p) + 1) := by
      rcases Nat.lt_or_ge (mag p) (gotMag (sentMag (mag p) + 1)) with h | h
      · exact h
      · have := sentMag_mono h
        rw [(roundTrips_le roundTrips_all _ (by omega)).1] at this
        omega
    have hg2 : gotMag (sentMag (mag p) + 1) ≤ INF := round_le _ _
    show Ieee.lt p ((Libm.ieee log pow).ofThousandths (sentMag (mag p) + 1)) = true
    unfold Ieee.lt
    rw [mag_ofThousandths log pow (by omega), sign_ofThousandths log pow (by omega), h1, if_neg (by omega)]
    exact decide_eq_true hg
  · rw [mag_ofThousandths log pow (by omega)]
    rcases Nat.eq_zero_or_pos (sentMag (mag p)) with h0 | h0
    · rw [h0, gotMag_zero]; omega
    · rcases Nat.lt_or_ge (mag p + 1) (gotMag (sentMag (mag p))) with h | h
      · have h3 := (roundTrips_le roundTrips_all _ hle).2 h0
        have h4 := sentMag_mono (show mag p ≤ gotMag (sentMag (mag p)) - 2 by omega)
        omega
      · exact h
  · have hi : IsThousandths (sentMag (mag p)) ((Libm.ieee log pow).ofThousandths (sentMag (mag p))) := by
      rw [ofThousandths_eq log pow (by omega)]
      exact (isThousandths_iff hle _).mpr rfl
    exact (c87_literal log pow _ hle _ hi).1

/-! ### C17 -/

/-- C17 is false in IEEE arithmetic: with a transmitted probability of 0 building the filter is undefined for every count that
is not 0 and every table. -/
theorem c17_false_zero {log : Double → Double} {pow : Double → Double → Double} (hf : AnnexF log pow) (extra : Nat → U32) (count : Nat)
    (h1 : 1 ≤ count) (h2 : count < 2 ^ 32) (c : Component) :
    Bloom.ofComponent (Libm.ieee log pow) extra count ((Libm.ieee log pow).ofThousandths 0) c = .ub .floatCast := by
  have hi := ieee_at_zero hf
  obtain ⟨ninf, h3, h4, h5, h6⟩ := hi.minusInf
  unfold Bloom.ofComponent Bloom.new optimalParams
  rw [if_neg (by simp [hi.valid]; omega), search_const (h3 count · h1 h2) h4 h5]
  simp only [h6, Res.ub_bind]

theorem ieee_toU32_lt (log : Double → Double) (pow : Double → Double → Double) :
    ∀ d m, (Libm.ieee log pow).toU32 d = some m → m < 2 ^ 32 := by
  intro d m h
  have h' : toUnsigned (2 ^ 32) d = some m := h
  unfold toUnsigned at h'
  split at h'
  · cases h'
  · split at h'
    · split at h'
      · cases h'; decide
      · cases h'
    · split at h'
      · rename_i hlt
        cases h'
        exact hlt
      · cases h'

/-- C17 is false in IEEE arithmetic: with any transmitted probability of 1 or more, any count that is not 0, and an empty
table, building the filter or asking it for a name is undefined. -/
theorem c17_false_large {log : Double → Double} {pow : Double → Double → Double} (hf : AnnexF log pow) (hw : PowAtLeastOne pow)
    (extra : Nat → U32) (count th : Nat) (h1 : 1 ≤ count) (h2 : count < 2 ^ 32) (h3 : 1000 ≤ th) (h4 : th < 2 ^ 64) (typ : Nat) (n : Name) :
    ∃ u, Res.bind (Bloom.ofComponent (Libm.ieee log pow) extra count ((Libm.ieee log pow).ofThousandths th) ⟨typ, []⟩)
      (fun bf => bf.contains n) = .ub u := by
  obtain ⟨g1, g2, g3⟩ := ieee_got_above log pow h3 h4
  refine (c17_exact _ _ (ieee_toU32_lt log pow) _ _ _ _).mpr ⟨by omega, ieee_valid g1 g3, ?_⟩
  have c1 : toUnsigned (2 ^ 32) 0#64 = some 0 := by decide +kernel
  have c2 : toUnsigned (2 ^ 32) (mk false INF) = none := by decide +kernel
  rcases ieee_search (fun k hk hk2 => ieee_above hf hw g1 g2 g3 h1 h2 hk hk2) with e | e
  · rw [e]
    exact .inr ⟨0, c1, .inl rfl, rfl⟩
  · rw [e]
    exact .inl c2

/-! ### Non-vacuity -/

/-- The default probability 0.001 of the examples is the literal 1/1000. -/
example : IsThousandths 1 0x3F50624DD2F1A9FC#64 := (isThousandths_iff (by decide) _).mpr (by decide +kernel)

/-- Non-vacuity for `c87_range`: 0.0019 is transmitted as 1, and the double just below 0.117 as 117. -/
example : (Libm.ieee id (fun x _ => x)).toThousandths 0x3F5F212D77318FC5#64 = some 1 ∧
    IsThousandths 117 0x3FBDF3B645A1CAC1#64 ∧ (Libm.ieee id (fun x _ => x)).toThousandths 0x3FBDF3B645A1CAC0#64 = some 117 :=
  ⟨by decide +kernel, (isThousandths_iff (by decide) _).mpr (by decide +kernel), by decide +kernel⟩

/-- Functions with the values that the C standard fixes. -/
def sampleLog (x : Double) : Double :=
  if sign x = true ∧ 0 < mag x then nan else if x = ofNat 0 then mk true INF else ofNat 0
def samplePow (x _y : Double) : Double := x

theorem sample_annexF : AnnexF sampleLog samplePow := by
  refine ⟨fun _ => rfl, fun _ _ _ _ => rfl, by decide +kernel, by decide +kernel, ?_⟩
  intro x h1 h2 _
  unfold sampleLog
  rw [if_pos ⟨h1, h2⟩]
  decide +kernel

example : PowAtLeastOne samplePow := fun _ _ h1 h2 h3 _ _ _ => ⟨h1, h2, Nat.le_of_lt h3⟩

end PSync
