import Verif.Spec.Bloom
import Verif.Proofs.IbltAny
import Mathlib.Tactic.IntervalCases
/-!
Lemmas about the Bloom filter.
-/
namespace PSync
open Spec

theorem getD_lt {l : Bytes} {i : Nat} {d : Byte} (h : i < l.length) : l.getD i d = l[i] := by
  rw [List.getD_eq_getElem?_getD, List.getElem?_eq_getElem h, Option.getD_some]

/-- Bit `i` of a byte string. -/
def bitAt (bits : Bytes) (i : Nat) : Bool := (bits.getD (i / 8) 0#8).getLsbD (i % 8)

theorem bitMask_getLsbD (b i : Nat) (hi : i < 8) (hb : b < 8) : (bitMask b).getLsbD i = decide (i = b) := by
  unfold bitMask
  interval_cases b <;> interval_cases i <;> decide

theorem and_mask_iff (w : Byte) (b : Nat) (hb : b < 8) : w &&& bitMask b = bitMask b ↔ w.getLsbD b = true := by
  constructor
  · intro h
    have h1 := congrArg (fun x => x.getLsbD b) h
    simp only [BitVec.getLsbD_and, bitMask_getLsbD b b hb hb, decide_true, Bool.and_true] at h1
    exact h1
  · intro h
    apply BitVec.eq_of_getLsbD_eq
    intro i hi
    rw [BitVec.getLsbD_and, bitMask_getLsbD b i hi hb]
    by_cases hib : i = b
    · subst hib; simp [h]
    · simp [hib]

theorem bytes_ext {a b : Bytes} (hl : a.length = b.length) (h : ∀ i, i < 8 * a.length → bitAt a i = bitAt b i) :
    a = b := by
  apply List.ext_getElem hl
  intro n h1 h2
  apply BitVec.eq_of_getLsbD_eq
  intro i hi
  have := h (8 * n + i) (by omega)
  unfold bitAt at this
  have e1 : (8 * n + i) / 8 = n := by omega
  have e2 : (8 * n + i) % 8 = i := by omega
  rw [e1, e2, getD_lt h1, getD_lt h2] at this
  exact this

theorem bitAt_set {bits : Bytes} {j : Nat} {w : Byte} (hw : bits[j / 8]? = some w) (i : Nat) :
    bitAt (bits.set (j / 8) (w ||| bitMask (j % 8))) i = (bitAt bits i || decide (i = j)) := by
  have hj := (List.getElem?_eq_some_iff.mp hw).1
  unfold bitAt
  by_cases h : i / 8 = j / 8
  · rw [List.getD_eq_getElem?_getD, List.getD_eq_getElem?_getD, h, hw, List.getElem?_set_self hj]
    simp only [Option.getD_some]
    rw [BitVec.getLsbD_or, bitMask_getLsbD _ _ (by omega) (by omega)]
    congr 1
    by_cases hij : i = j
    · subst hij; simp
    · have : i % 8 ≠ j % 8 := by omega
      simp [hij, this]
  · rw [List.getD_eq_getElem?_getD, List.getD_eq_getElem?_getD, List.getElem?_set_ne (fun e => h e.symm)]
    have : i ≠ j := fun e => h (by rw [e])
    simp [this]

theorem positions_lt {bf : Bloom} (hbf : 0 < bf.tableSize) {n : Name} {i : Nat} (h : i ∈ positions bf n) :
    i < bf.tableSize := by
  obtain ⟨s, _, rfl⟩ := List.mem_map.mp h
  exact Nat.mod_lt _ hbf

theorem setBit_of {bf : Bloom} (h0 : 0 < bf.tableSize) {bits : Bytes} (hl : 8 * bits.length = bf.tableSize)
    (n : Name) (s : U32) : ∃ bits', bf.setBit n bits s = .ok bits' ∧ bits'.length = bits.length ∧
      ∀ i, bitAt bits' i = (bitAt bits i || decide (i = bf.index s n)) := by
  have hi : bf.index s n < bf.tableSize := Nat.mod_lt _ h0
  have hlt : bf.index s n / 8 < bits.length := by omega
  have hw : bits[bf.index s n / 8]? = some bits[bf.index s n / 8] := List.getElem?_eq_getElem hlt
  refine ⟨bits.set (bf.index s n / 8) (bits[bf.index s n / 8] ||| bitMask (bf.index s n % 8)), ?_, by simp, ?_⟩
  · unfold Bloom.setBit
    rw [if_neg (by omega)]
    simp only
    rw [hw]
  · exact bitAt_set hw

theorem setBits_of {bf : Bloom} (h0 : 0 < bf.tableSize) (n : Name) (ss : List U32) : ∀ bits : Bytes,
    8 * bits.length = bf.tableSize → ∃ bits', foldRes (bf.setBit n) bits ss = .ok bits' ∧
      bits'.length = bits.length ∧
      ∀ i, bitAt bits' i = (bitAt bits i || decide (i ∈ ss.map (fun s => bf.index s n))) := by
  induction ss with
  | nil => intro bits _; exact ⟨bits, rfl, rfl, by simp⟩
  | cons s ss ih =>
    intro bits hl
    obtain ⟨b1, h1, hl1, hb1⟩ := setBit_of h0 hl n s
    obtain ⟨b2, h2, hl2, hb2⟩ := ih b1 (by omega)
    refine ⟨b2, by simp only [foldRes, h1, Res.ok_bind, h2], by omega, ?_⟩
    intro i
    rw [hb2, hb1, List.map_cons]
    simp only [List.mem_cons, Bool.decide_or, Bool.or_assoc]

theorem index_eq (bf : Bloom) (s : U32) (n : Name) :
    bf.index s n = (murmurBytes n.wireValue s).toNat % bf.tableSize := rfl

theorem insert_of {bf : Bloom} (h : SizedBf bf) (n : Name) :
    ∃ bits', bf.insert n = .ok { bf with bits := bits' } ∧ bits'.length = bf.bits.length ∧
      ∀ i, bitAt bits' i = (bitAt bf.bits i || decide (i ∈ positions bf n)) := by
  obtain ⟨b, h1, h2, h3⟩ := setBits_of h.1 n bf.salts bf.bits h.2
  refine ⟨b, by unfold Bloom.insert; rw [h1, Res.ok_bind], h2, ?_⟩
  intro i
  rw [h3]
  rfl

theorem containsLoop_of {bf : Bloom} (h : SizedBf bf) (n : Name) (ss : List U32) :
    bf.containsLoop n ss = .ok (ss.all (fun s => bitAt bf.bits (bf.index s n))) := by
  induction ss with
  | nil => rfl
  | cons s ss ih =>
    have hi : bf.index s n < bf.tableSize := Nat.mod_lt _ h.1
    have hlt : bf.index s n / 8 < bf.bits.length := by have := h.2; omega
    have hw : bf.bits[bf.index s n / 8]? = some bf.bits[bf.index s n / 8] := List.getElem?_eq_getElem hlt
    have hb : bitAt bf.bits (bf.index s n) = (bf.bits[bf.index s n / 8]).getLsbD (bf.index s n % 8) := by
      unfold bitAt; rw [getD_lt hlt]
    unfold Bloom.containsLoop
    rw [if_neg (by have := h.1; omega)]
    simp only [hw, List.all_cons]
    have hm := and_mask_iff bf.bits[bf.index s n / 8] (bf.index s n % 8) (by omega)
    by_cases hbit : bitAt bf.bits (bf.index s n) = true
    · rw [if_neg (not_not_intro (hm.mpr (by rw [← hb]; exact hbit))), ih, hbit, Bool.true_and]
    · rw [if_pos (fun he => hbit (by rw [hb]; exact hm.mp he))]
      simp only [Bool.not_eq_true] at hbit
      rw [hbit, Bool.false_and]

theorem contains_of {bf : Bloom} (h : SizedBf bf) (n : Name) :
    bf.contains n = .ok (decide (∀ i ∈ positions bf n, bitAt bf.bits i = true)) := by
  unfold Bloom.contains
  rw [containsLoop_of h]
  congr 1
  rw [Bool.eq_iff_iff, List.all_eq_true, decide_eq_true_iff]
  constructor
  · intro h1 i hi
    obtain ⟨s, hs, rfl⟩ := List.mem_map.mp hi
    exact h1 s hs
  · intro h1 s hs
    exact h1 _ (List.mem_map.mpr ⟨s, hs, rfl⟩)

theorem clear_bitAt (bf : Bloom) (i : Nat) : bitAt bf.clear.bits i = false := by
  unfold bitAt Bloom.clear
  simp only
  rw [List.getD_eq_getElem?_getD, List.getElem?_map]
  cases bf.bits[i / 8]? <;> simp

/-- What a history of insertions and clearings does to the bits. -/
theorem runBf_of (ops : List BfOp) : ∀ (bf : Bloom) (acc : List Name), SizedBf bf →
    (∀ n ∈ acc, ∀ i ∈ positions bf n, bitAt bf.bits i = true) →
    ∃ bf', runBf bf ops = .ok bf' ∧ SizedBf bf' ∧ (∀ bits, { bf with bits := bits } = { bf' with bits := bits }) ∧
      bf'.bits.length = bf.bits.length ∧
      (∀ n ∈ live acc ops, ∀ i ∈ positions bf n, bitAt bf'.bits i = true) ∧
      ∀ i, bitAt bf'.bits i = true → (bitAt bf.bits i = true ∧ (∀ n ∈ acc, n ∈ live acc ops)) ∨
        ∃ n ∈ live acc ops, i ∈ positions bf n := by
  induction ops with
  | nil =>
    intro bf acc hs ha
    exact ⟨bf, rfl, hs, fun _ => rfl, rfl, ha, fun i hi => Or.inl ⟨hi, fun n hn => hn⟩⟩
  | cons o ops ih =>
    intro bf acc hs ha
    cases o with
    | ins n =>
      obtain ⟨bits', h1, h2, h3⟩ := insert_of hs n
      have hs1 : SizedBf { bf with bits := bits' } := ⟨hs.1, by simp only; rw [h2]; exact hs.2⟩
      have hp : ∀ m, positions { bf with bits := bits' } m = positions bf m := fun m => rfl
      obtain ⟨bf', r1, r2, r3, r4, r5, r6⟩ := ih { bf with bits := bits' } (n :: acc) hs1 (by
        intro m hm i hi
        rw [hp] at hi
        simp only
        rw [h3]
        rcases List.mem_cons.mp hm with rfl | hm
        · simp [hi]
        · simp [ha m hm i hi])
      refine ⟨bf', ?_, r2, fun b => r3 b, by rw [r4]; exact h2, fun m hm i hi => r5 m hm i hi, ?_⟩
      · unfold runBf at r1 ⊢
        simp only [foldRes, BfOp.apply, h1, Res.ok_bind, r1]
      · intro i hi
        rcases r6 i hi with ⟨h4, h5⟩ | h4
        · simp only at h4
          rw [h3] at h4
          by_cases hpos : i ∈ positions bf n
          · exact Or.inr ⟨n, h5 n (by simp), hpos⟩
          · simp only [hpos, decide_false, Bool.or_false] at h4
            exact Or.inl ⟨h4, fun m hm => h5 m (by simp [hm])⟩
        · exact Or.inr h4
    | clear =>
      have hs1 : SizedBf bf.clear := ⟨hs.1, by simpa [Bloom.clear] using hs.2⟩
      obtain ⟨bf', r1, r2, r3, r4, r5, r6⟩ := ih bf.clear [] hs1 (by simp)
      refine ⟨bf', ?_, r2, fun b => r3 b, by rw [r4]; simp [Bloom.clear], fun m hm i hi => r5 m hm i hi, ?_⟩
      · unfold runBf at r1 ⊢
        simp only [foldRes, BfOp.apply, Res.ok_bind, r1]
      · intro i hi
        rcases r6 i hi with ⟨h4, _⟩ | h4
        · rw [clear_bitAt] at h4; simp at h4
        · exact Or.inr h4

theorem bloomTableSize_of {m : Nat} (h1 : 1 ≤ m) (h2 : m ≤ 4294967288) :
    0 < bloomTableSize m ∧ 8 * (bloomTableSize m / 8) = bloomTableSize m := by
  unfold bloomTableSize
  simp only
  by_cases h : m % 8 = 0
  · simp only [h, ne_eq, not_true_eq_false, if_false]
    rw [if_neg (by omega)]; omega
  · simp only [ne_eq, h, not_false_eq_true, if_true]
    rw [Nat.mod_eq_of_lt (by omega), if_neg (by omega)]
    omega

end PSync
