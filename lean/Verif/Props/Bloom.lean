import Verif.Proofs.Bloom
import Verif.Proofs.Wire
/-!
Properties C14–C17: the Bloom filter (`psync::detail::BloomFilter`).
-/
namespace PSync
open Spec

/-! ### C14 -/

/-- C14: whatever is inserted or cleared, every name inserted since the last `clear` is contained; no
call has undefined behaviour. -/
theorem c14_no_false_negative (bf : Bloom) (hs : SizedBf bf) (ops : List BfOp) :
    ∃ bf', runBf bf ops = .ok bf' ∧ ∀ n ∈ live [] ops, bf'.contains n = .ok true := by
  obtain ⟨bf', h1, h2, h3, _, h5, _⟩ := runBf_of ops bf [] hs (by simp)
  refine ⟨bf', h1, fun n hn => ?_⟩
  rw [contains_of h2]
  have hp : positions bf' n = positions bf n := by
    have := h3 []
    simp only [Bloom.mk.injEq, true_and] at this
    unfold positions
    rw [this.1, this.2.1]
  rw [hp, decide_eq_true (h5 n hn)]

/-- C14, exact form: a filter that starts empty contains a name exactly if each of its positions is a
position of some live name (so false positives are the only errors). -/
theorem c14_contains_iff (bf : Bloom) (hs : SizedBf bf) (h0 : ∀ b ∈ bf.bits, b = 0#8) (ops : List BfOp) (q : Name) :
    ∃ bf' r, runBf bf ops = .ok bf' ∧ bf'.contains q = .ok r ∧
      (r = true ↔ ∀ i ∈ positions bf q, ∃ n ∈ live [] ops, i ∈ positions bf n) := by
  obtain ⟨bf', h1, h2, h3, _, h5, h6⟩ := runBf_of ops bf [] hs (by simp)
  refine ⟨bf', _, h1, contains_of h2 q, ?_⟩
  have hp : positions bf' q = positions bf q := by
    have := h3 []
    simp only [Bloom.mk.injEq, true_and] at this
    unfold positions
    rw [this.1, this.2.1]
  rw [hp, decide_eq_true_iff]
  have hz : ∀ i, bitAt bf.bits i = false := by
    intro i
    unfold bitAt
    rw [List.getD_eq_getElem?_getD]
    cases hx : bf.bits[i / 8]? with
    | none => simp
    | some w => rw [h0 w (List.mem_of_getElem? hx)]; simp
  constructor
  · intro h i hi
    rcases h6 i (h i hi) with ⟨h7, _⟩ | h7
    · rw [hz] at h7; simp at h7
    · exact h7
  · intro h i hi
    obtain ⟨n, hn, hin⟩ := h i hi
    exact h5 n hn i hin

/-! ### C15 -/

/-- C15: the filter depends only on the set of live names, not on order, repetition or cleared names. -/
theorem c15_set_only (bf : Bloom) (hs : SizedBf bf) (h0 : ∀ b ∈ bf.bits, b = 0#8) (ops ops' : List BfOp)
    (hset : ∀ n, n ∈ live [] ops ↔ n ∈ live [] ops') : runBf bf ops = runBf bf ops' := by
  obtain ⟨b1, h1, _, h3, h4, h5, h6⟩ := runBf_of ops bf [] hs (by simp)
  obtain ⟨b2, k1, _, k3, k4, k5, k6⟩ := runBf_of ops' bf [] hs (by simp)
  rw [h1, k1]
  congr 1
  have hz : ∀ i, bitAt bf.bits i = false := by
    intro i
    unfold bitAt
    rw [List.getD_eq_getElem?_getD]
    cases hx : bf.bits[i / 8]? with
    | none => simp
    | some w => rw [h0 w (List.mem_of_getElem? hx)]; simp
  have hbits : b1.bits = b2.bits := by
    apply bytes_ext (by omega)
    intro i _
    rw [Bool.eq_iff_iff]
    constructor
    · intro hi
      rcases h6 i hi with ⟨h7, _⟩ | ⟨n, hn, hin⟩
      · rw [hz] at h7; simp at h7
      · exact k5 n ((hset n).mp hn) i hin
    · intro hi
      rcases k6 i hi with ⟨h7, _⟩ | ⟨n, hn, hin⟩
      · rw [hz] at h7; simp at h7
      · exact h5 n ((hset n).mpr hn) i hin
  have e1 := h3 b1.bits
  have e2 := k3 b2.bits
  calc b1 = { bf with bits := b1.bits } := e1.symm
    _ = { bf with bits := b2.bits } := by rw [hbits]
    _ = b2 := e2

/-- C15: `clear` makes a filter equal to the new one it was built from. -/
theorem c15_clear (fl : Libm) (extra : Nat → U32) (count : Nat) (fpp : Double) (bf bf' : Bloom)
    (ops : List BfOp) (h : Bloom.new fl extra count fpp = .ok bf) (hs : SizedBf bf)
    (h' : runBf bf ops = .ok bf') : bf'.clear = bf := by
  obtain ⟨b1, h1, _, h3, h4, _, _⟩ := runBf_of ops bf [] hs (by simp)
  rw [h'] at h1
  cases h1
  unfold Bloom.clear
  have : bf'.bits.map (fun _ => 0#8) = bf.bits := by
    rw [List.map_const', h4]
    unfold Bloom.new at h
    obtain ⟨kt, _, h⟩ := Res.bind_eq_ok.mp h
    simp only [Res.ok.injEq] at h
    subst h
    simp
  rw [this, ← h3]

/-! ### C16 -/

/-- C16: the filter rebuilt by the producer from the three appended components behaves identically, if the
transmitted probability (rounded down to thousandths) gives the same parameters. -/
theorem c16_round_trip (fl : Libm) (extra : Nat → U32) (count : Nat) (hc : count < 2 ^ 32) (fpp : Double)
    (bf bf' : Bloom) (ops : List BfOp) (h : Bloom.new fl extra count fpp = .ok bf) (hs : SizedBf bf)
    (h' : runBf bf ops = .ok bf') (cs : List Component) (hcs : bf'.toComponents fl = .ok cs) :
    ∃ c1 c2 c3 t, cs = [c1, c2, c3] ∧ Component.toNumber c1 = .ok count ∧
      (t < 2 ^ 64 → Component.toNumber c2 = .ok t) ∧ fl.toThousandths fpp = some t ∧
      (optimalParams fl count (fl.ofThousandths t) = optimalParams fl count fpp →
        ∃ bf'', Bloom.ofComponent fl extra count (fl.ofThousandths t) c3 = .ok bf'' ∧
          ∀ n, bf''.contains n = bf'.contains n) := by
  obtain ⟨b1, h1, hs1, h3, h4, _, _⟩ := runBf_of ops bf [] hs (by simp)
  rw [h'] at h1
  cases h1
  have e := h3 []
  simp only [Bloom.mk.injEq, true_and] at e
  unfold Bloom.new at h
  obtain ⟨kt, hkt, hb⟩ := Res.bind_eq_ok.mp h
  simp only [Res.ok.injEq] at hb
  unfold Bloom.toComponents at hcs
  have efpp : bf'.fpp = fpp := by rw [← e.2.2.2, ← hb]
  have eproj : bf'.projected = count := by rw [← e.2.2.1, ← hb]
  rw [efpp, eproj] at hcs
  cases ht : fl.toThousandths fpp with
  | none => rw [ht] at hcs; simp at hcs
  | some t =>
    rw [ht] at hcs
    simp only [Res.ok.injEq] at hcs
    refine ⟨_, _, _, t, hcs.symm, ?_, ?_, rfl, ?_⟩
    · rw [Component.toNumber, readNni_nniBytes count (by omega)]; rfl
    · intro ht'
      rw [Component.toNumber, readNni_nniBytes t (by omega)]; rfl
    · intro hp
      unfold Bloom.ofComponent Bloom.new
      rw [hp, hkt]
      simp only [Res.ok_bind]
      have hl : bf'.bits.length = kt.2 / 8 := by rw [h4, ← hb]; simp
      rw [if_neg (not_not_intro hl)]
      refine ⟨_, rfl, ?_⟩
      intro n
      have es : bf'.salts = genSalts extra kt.1 := by rw [← e.1, ← hb]
      have et : bf'.tableSize = kt.2 := by rw [← e.2.1, ← hb]
      have hs2 : SizedBf ⟨genSalts extra kt.1, bf'.bits, kt.2, count, fl.ofThousandths t⟩ := by
        refine ⟨?_, ?_⟩
        · have := hs1.1; rw [et] at this; exact this
        · have := hs1.2; rw [et] at this; exact this
      rw [contains_of hs2, contains_of hs1]
      unfold positions
      rw [es, et]

/-- C16: a received table of another size is rejected with an exception. -/
theorem c16_rejects (fl : Libm) (extra : Nat → U32) (count : Nat) (fpp : Double) (c : Component) (bf : Bloom)
    (h : Bloom.new fl extra count fpp = .ok bf) :
    (c.value.length ≠ bf.tableSize / 8 → Bloom.ofComponent fl extra count fpp c = .throw .bloom) ∧
    (c.value.length = bf.tableSize / 8 → Bloom.ofComponent fl extra count fpp c = .ok { bf with bits := c.value }) := by
  unfold Bloom.ofComponent
  rw [h, Res.ok_bind]
  constructor
  · intro hne; rw [if_pos hne]
  · intro he; rw [if_neg (not_not_intro he)]

/-! ### C17 -/

/-- The full claim C17: whatever is received, building the filter and asking it for a name ends in an
answer or an exception. -/
def Spec.BloomSafe (fl : Libm) (extra : Nat → U32) : Prop :=
  ∀ (count thousandths : Nat) (c : Component) (n : Name) (u : UB),
    Res.bind (Bloom.ofComponent fl extra count (fl.ofThousandths thousandths) c) (fun bf => bf.contains n) ≠ .ub u

theorem search_const {fl : Libm} {count : Nat} {fpp m : Double} (hm : ∀ k, 1 ≤ k → k < 1000 → fl.currM count fpp k = m)
    (h1 : fl.lt m fl.inf = true) (h2 : fl.lt m m = false) : fl.search count fpp = (m, 1) := by
  unfold Libm.search
  rw [show (999 : Nat) = 998 + 1 from rfl, List.range'_succ, Libm.searchFrom, hm 1 (by omega) (by omega), if_pos h1]
  have hl : ∀ k ∈ List.range' (1 + 1) 998, 1 ≤ k ∧ k < 1000 := by
    intro k hk
    rw [List.mem_range'_1] at hk
    omega
  generalize List.range' (1 + 1) 998 = l at hl
  induction l with
  | nil => rfl
  | cons k l ih =>
    have hk := hl k (by simp)
    rw [Libm.searchFrom, hm k hk.1 hk.2, h2, if_neg (by simp), ih (fun k hk => hl k (by simp [hk]))]

/-- C17 is false for IEEE arithmetic: a transmitted probability of 1.000 and an empty table pass the size
check (table_size is clamped to 1, its byte count rounds to 0), and the first lookup reads `bit_table_[0]`
of an empty vector. -/
theorem c17_false (fl : Libm) (extra : Nat → U32) (hi : IeeeAtOne fl) : ¬ Spec.BloomSafe fl extra := by
  intro h
  apply h 1 1000 ⟨8, []⟩ [] .outOfBounds
  unfold Bloom.ofComponent Bloom.new optimalParams
  rw [if_neg (by simp [hi.valid]), search_const (hi.zero 1 · (by decide) (by decide)) hi.zero_lt_inf hi.zero_lt_zero]
  simp only [hi.cast]
  have e1 : bloomNumHashes 1 = 1 := rfl
  have e2 : bloomTableSize 0 = 1 := rfl
  rw [e1, e2]
  simp only [Res.ok_bind]
  rw [if_neg (by simp), Res.ok_bind]
  unfold Bloom.contains
  simp only
  have e3 : genSalts extra 1 = mixSalts (predefSalt.take 1) := by simp [genSalts]
  rw [e3]
  have e4 : ∃ x, mixSalts (predefSalt.take 1) = [x] := List.length_eq_one_iff.mp (by decide +kernel)
  obtain ⟨x, e4⟩ := e4
  rw [e4]
  unfold Bloom.containsLoop
  simp

/-- C17 is false in a second way: a transmitted probability of 0 (any configured probability below 0.001
is transmitted as 0) makes the constructor convert minus infinity to `unsigned int`. -/
theorem c17_false_cast (fl : Libm) (extra : Nat → U32) (hi : IeeeAtZero fl) : ¬ Spec.BloomSafe fl extra := by
  intro h
  apply h 6 0 ⟨8, []⟩ [] .floatCast
  obtain ⟨ninf, h1, h2, h3, h4⟩ := hi.minusInf
  unfold Bloom.ofComponent Bloom.new optimalParams
  rw [if_neg (by simp [hi.valid]), search_const (h1 6 · (by decide) (by decide)) h2 h3]
  simp only [h4, Res.ub_bind]

/-- C17, partial: memory safe whenever the optimal size computed from the parameters is between 1 and
2^32-8 bits (missing: 0, which `c17_false` refutes, and sizes that wrap around when rounded up). -/
theorem c17_safe_partial (fl : Libm) (extra : Nat → U32) (count : Nat) (fpp : Double) (c : Component) (n : Name)
    (m : Nat) (hm : fl.toU32 (fl.search count fpp).1 = some m) (h1 : 1 ≤ m) (h2 : m ≤ 4294967288) (u : UB) :
    Res.bind (Bloom.ofComponent fl extra count fpp c) (fun bf => bf.contains n) ≠ .ub u := by
  unfold Bloom.ofComponent Bloom.new optimalParams
  split
  · simp
  · rw [hm]
    simp only [Res.ok_bind]
    split
    · simp
    · rename_i hl
      simp only [ne_eq, not_not] at hl
      rw [Res.ok_bind, contains_of]
      · simp
      · obtain ⟨a, b⟩ := bloomTableSize_of h1 h2
        exact ⟨a, by simp only; rw [hl]; exact b⟩

theorem genSalts_ne {extra : Nat → U32} {n : Nat} (hn : 1 ≤ n) : genSalts extra n ≠ [] := by
  unfold genSalts
  have hfold : ∀ (l : List Nat) (s : List U32) (f : List U32 → Nat → List U32) (hf : ∀ s i, (f s i).length = s.length),
      (l.foldl f s).length = s.length := by
    intro l
    induction l with
    | nil => intros; rfl
    | cons i l ih => intro s f hf; rw [List.foldl_cons, ih _ _ hf, hf]
  split
  · intro h
    have h1 : (mixSalts (predefSalt.take n)).length = (predefSalt.take n).length := by
      unfold mixSalts
      exact hfold _ _ _ (fun s i => by simp)
    rw [h, List.length_take, show predefSalt.length = 128 from rfl] at h1
    simp at h1
    omega
  · intro h
    have := congrArg List.length h
    rw [List.length_append, show predefSalt.length = 128 from rfl] at this
    simp at this

/-- The computed size is 0, or wraps around to 0 when it is rounded up to whole bytes. -/
theorem bloomTableSize_bad {m : Nat} (h : m = 0 ∨ 4294967288 < m) (hm : m < 4294967296) : bloomTableSize m = 1 := by
  unfold bloomTableSize
  rcases h with rfl | h
  · rfl
  · have : m % 8 ≠ 0 := by omega
    have h2 : m + (8 - m % 8) = 4294967296 := by omega
    simp only [ne_eq, this, not_false_eq_true, if_true, h2]
    rfl

/-- C17, exactly when undefined behaviour happens, for a conversion that yields 32-bit values: the count is not 0, the
probability is accepted, and either the computed size cannot be converted, or it is 0 or more than 2^32-8 bits and the received
table is empty. -/
theorem c17_exact (fl : Libm) (extra : Nat → U32) (hfl : ∀ d m, fl.toU32 d = some m → m < 2 ^ 32) (count : Nat) (fpp : Double)
    (c : Component) (n : Name) :
    (∃ u, Res.bind (Bloom.ofComponent fl extra count fpp c) (fun bf => bf.contains n) = .ub u) ↔
      count ≠ 0 ∧ fl.invalidProb fpp = false ∧
        (fl.toU32 (fl.search count fpp).1 = none ∨
         ∃ m, fl.toU32 (fl.search count fpp).1 = some m ∧ (m = 0 ∨ 2 ^ 32 - 8 < m) ∧ c.value = []) := by
  by_cases hin : count = 0 ∨ fl.invalidProb fpp = true
  · constructor
    · rintro ⟨u, hu⟩
      unfold Bloom.ofComponent Bloom.new optimalParams at hu
      rw [if_pos hin] at hu
      cases hu
    · rintro ⟨h1, h2, _⟩
      rcases hin with h | h
      · exact absurd h h1
      · rw [h] at h2; cases h2
  · have hin' := not_or.mp hin
    cases hm : fl.toU32 (fl.search count fpp).1 with
    | none =>
      refine ⟨fun _ => ⟨hin'.1, by simpa using hin'.2, .inl rfl⟩, fun _ => ⟨.floatCast, ?_⟩⟩
      unfold Bloom.ofComponent Bloom.new optimalParams
      rw [if_neg hin, hm]
      rfl
    | some m =>
      have hlt := hfl _ _ hm
      by_cases hbad : m = 0 ∨ 4294967288 < m
      · have hts := bloomTableSize_bad hbad (by omega)
        by_cases hc : c.value = []
        · refine ⟨fun _ => ⟨hin'.1, by simpa using hin'.2, .inr ⟨m, rfl, by omega, hc⟩⟩, fun _ => ⟨.outOfBounds, ?_⟩⟩
          unfold Bloom.ofComponent Bloom.new optimalParams
          rw [if_neg hin, hm]
          simp only [Res.ok_bind, hts]
          rw [if_neg (by simp [hc]), Res.ok_bind, hc]
          unfold Bloom.contains
          simp only
          cases hs : genSalts extra (bloomNumHashes (fl.search count fpp).2) with
          | nil => exact absurd hs (genSalts_ne (by unfold bloomNumHashes; split <;> omega))
          | cons a l => simp [Bloom.containsLoop]
        · constructor
          · rintro ⟨u, hu⟩
            unfold Bloom.ofComponent Bloom.new optimalParams at hu
            rw [if_neg hin, hm] at hu
            simp only [Res.ok_bind, hts] at hu
            rw [if_pos (by have := List.length_pos_iff.mpr hc; omega)] at hu
            cases hu
          · rintro ⟨_, _, h | ⟨_, _, _, h⟩⟩
            · cases h
            · exact absurd h hc
      · constructor
        · rintro ⟨u, hu⟩
          exact absurd hu (c17_safe_partial fl extra count fpp c n m hm (by omega) (by omega) u)
        · rintro ⟨_, _, h | ⟨m', h, h', _⟩⟩
          · cases h
          · rw [Option.some.injEq] at h
            omega

/-! ### Non-vacuity -/

/-- A floating point oracle that answers like the code does for the default consumer parameters
(6 elements, probability 0.001 = 0x3F50624DD2F1A9FC: 86 bits, 10 hashes), for 1.000 and for 0. -/
def sampleLibm : Libm where
  invalidProb := fun _ => false
  currM := fun _ p k => if p = 0x3F50624DD2F1A9FC#64 then (if k = 10 then 86#64 else 1000#64)
                        else if p = 0x3FF0000000000000#64 then 0#64 else 0xFFF0000000000000#64
  lt := fun a b => if a = 0xFFF0000000000000#64 then b ≠ a else if b = 0xFFF0000000000000#64 then false else a.toNat < b.toNat
  inf := 0x7FF0000000000000#64
  toU32 := fun d => if d = 0xFFF0000000000000#64 then none else some (d.toNat % 4294967296)
  toThousandths := fun d => if d = 0x3F50624DD2F1A9FC#64 then some 1 else some 1000
  ofThousandths := fun n => if n = 1 then 0x3F50624DD2F1A9FC#64 else if n = 1000 then 0x3FF0000000000000#64 else 0#64

example : IeeeAtOne sampleLibm := by
  refine ⟨rfl, ?_, by decide, by decide, by decide⟩
  intro c k _ _ _ _
  simp [sampleLibm]

/-- Non-vacuity for `c17_exact`: with probability 1.000 an empty table is read out of bounds. -/
example : ∃ u, Res.bind (Bloom.ofComponent sampleLibm (fun _ => 0) 6 0x3FF0000000000000#64 ⟨8, []⟩) (fun bf => bf.contains []) = .ub u :=
  (c17_exact _ _ (fun d m h => by simp only [sampleLibm] at h; split at h <;> cases h; omega) _ _ _ _).mpr
    ⟨by decide, rfl, .inr ⟨0, by decide +kernel, .inl rfl, rfl⟩⟩

example : IeeeAtZero sampleLibm := by
  refine ⟨rfl, 0xFFF0000000000000#64, ?_, by decide, by decide, by decide⟩
  intro c k _ _ _ _
  simp [sampleLibm]

theorem sample_search : sampleLibm.search 6 0x3F50624DD2F1A9FC#64 = (86#64, 10) := by decide +kernel

/-- The filter of a default consumer. -/
theorem sample_new (extra : Nat → U32) : Bloom.new sampleLibm extra 6 0x3F50624DD2F1A9FC#64
    = .ok ⟨mixSalts (predefSalt.take 10), List.replicate 11 0#8, 88, 6, 0x3F50624DD2F1A9FC#64⟩ := by
  unfold Bloom.new optimalParams
  rw [sample_search, if_neg (by simp [sampleLibm])]
  rfl

def sampleBf : Bloom := ⟨mixSalts (predefSalt.take 10), List.replicate 11 0#8, 88, 6, 0x3F50624DD2F1A9FC#64⟩

/-- Non-vacuity for C14–C16: the default filter is well sized and starts empty, and a name that was not
inserted is not contained. -/
example : SizedBf sampleBf ∧ ∀ b ∈ sampleBf.bits, b = 0#8 := by
  refine ⟨⟨by decide, by decide⟩, by simp [sampleBf]⟩
example : Res.bind (runBf sampleBf [.ins [⟨8, [97]⟩], .clear, .ins [⟨8, [98]⟩]])
    (fun bf => Res.bind (bf.contains [⟨8, [97]⟩]) fun a => Res.bind (bf.contains [⟨8, [98]⟩]) fun b => .ok (a, b))
    = .ok (false, true) := by decide +kernel
example : optimalParams sampleLibm 6 (sampleLibm.ofThousandths 1) = optimalParams sampleLibm 6 0x3F50624DD2F1A9FC#64 := rfl

end PSync
