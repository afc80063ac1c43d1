import Verif.Model.Murmur
import Mathlib.Tactic.IntervalCases
/-!
MurmurHash3 on 32-bit keys is injective for every seed.
-/
namespace PSync

theorem mul_right_inj_of_inv {c c' : U32} (h : c * c' = 1#32) {x y : U32} (hxy : x * c = y * c) : x = y := by
  have := congrArg (· * c') hxy
  simpa [BitVec.mul_assoc, h] using this

theorem add_right_inj' {c x y : U32} (h : x + c = y + c) : x = y := by
  have := congrArg (· - c) h
  simpa using this

theorem xor_left_inj' {c x y : U32} (h : c ^^^ x = c ^^^ y) : x = y := by
  have := congrArg (c ^^^ ·) h
  simpa [← BitVec.xor_assoc] using this

theorem xor_right_inj' {c x y : U32} (h : x ^^^ c = y ^^^ c) : x = y := by
  rw [BitVec.xor_comm x, BitVec.xor_comm y] at h
  exact xor_left_inj' h

theorem shr_ge_zero (x : U32) {n : Nat} (h : 32 ≤ n) : x >>> n = 0#32 := by
  apply BitVec.eq_of_getLsbD_eq
  intro i hi
  simp
  apply BitVec.getLsbD_of_ge
  omega

theorem xorshift16_inj {x y : U32} (h : x ^^^ (x >>> 16) = y ^^^ (y >>> 16)) : x = y := by
  have key : ∀ z : U32, (z ^^^ (z >>> 16)) ^^^ ((z ^^^ (z >>> 16)) >>> 16) = z := by
    intro z
    rw [BitVec.ushiftRight_xor_distrib, ← BitVec.shiftRight_add, shr_ge_zero z (n := 16 + 16) (by omega)]
    simp [BitVec.xor_assoc]
  rw [← key x, ← key y, h]

theorem xorshift13_inj {x y : U32} (h : x ^^^ (x >>> 13) = y ^^^ (y >>> 13)) : x = y := by
  have k1 : ∀ z : U32, (z ^^^ (z >>> 13)) ^^^ ((z ^^^ (z >>> 13)) >>> 13) = z ^^^ (z >>> 26) := by
    intro z
    rw [BitVec.ushiftRight_xor_distrib, ← BitVec.shiftRight_add]
    simp only [BitVec.xor_assoc]
    rw [← BitVec.xor_assoc (z >>> 13), BitVec.xor_self, BitVec.zero_xor]
  have k2 : ∀ z : U32, (z ^^^ (z >>> 26)) ^^^ ((z ^^^ (z >>> 26)) >>> 26) = z := by
    intro z
    rw [BitVec.ushiftRight_xor_distrib, ← BitVec.shiftRight_add, shr_ge_zero z (n := 26 + 26) (by omega)]
    simp [BitVec.xor_assoc]
  rw [← k2 x, ← k2 y, ← k1 x, ← k1 y, h]

theorem rotl_inv (r : Nat) (hr : 0 < r) (hr' : r < 32) (x : U32) : rotl32 (rotl32 x r) (32 - r) = x := by
  unfold rotl32
  apply BitVec.eq_of_getLsbD_eq
  intro i hi
  have e0 : 32 - (32 - r) = r := by omega
  simp only [BitVec.getLsbD_or, BitVec.getLsbD_shiftLeft, BitVec.getLsbD_ushiftRight, e0]
  by_cases h1 : i < 32 - r
  · have e1 : ¬ (r + i < r) := by omega
    have e2 : r + i - r = i := by omega
    have e3 : r + i < 32 := by omega
    have e4 : x.getLsbD (32 - r + (r + i)) = false := BitVec.getLsbD_of_ge _ _ (by omega)
    rw [e2, e4]
    simp [h1, e3]
  · have e1 : i - (32 - r) < r := by omega
    have e2 : 32 - r + (i - (32 - r)) = i := by omega
    have e4 : x.getLsbD (32 - r + (r + i)) = false := BitVec.getLsbD_of_ge _ _ (by omega)
    have e5 : ¬ (r + i < 32) := by omega
    rw [e2, e4]
    simp [h1, hi, e1, e5]

theorem rotl_inj {r : Nat} (hr : 0 < r) (hr' : r < 32) {x y : U32} (h : rotl32 x r = rotl32 y r) : x = y := by
  rw [← rotl_inv r hr hr' x, ← rotl_inv r hr hr' y, h]

theorem mmScramble_inj {x y : U32} (h : mmScramble x = mmScramble y) : x = y := by
  unfold mmScramble at h
  have h1 := mul_right_inj_of_inv (c := mmC2) (c' := 0x56ed309b#32) (by decide) h
  have h2 := rotl_inj (by omega) (by omega) h1
  exact mul_right_inj_of_inv (c := mmC1) (c' := 0xdee13bb1#32) (by decide) h2

theorem mmRound_inj {s x y : U32} (h : mmRound s x = mmRound s y) : x = y := by
  unfold mmRound at h
  have h1 := add_right_inj' h
  have h2 := mul_right_inj_of_inv (c := 5#32) (c' := 0xcccccccd#32) (by decide) h1
  have h3 := rotl_inj (by omega) (by omega) h2
  exact mmScramble_inj (xor_left_inj' h3)

theorem mmFinal_inj {n : Nat} {x y : U32} (h : mmFinal x n = mmFinal y n) : x = y := by
  unfold mmFinal at h
  simp only at h
  have h1 := xorshift16_inj h
  have h2 := mul_right_inj_of_inv (c := 0xc2b2ae35#32) (c' := 0x7ed1b41d#32) (by decide) h1
  have h3 := xorshift13_inj h2
  have h4 := mul_right_inj_of_inv (c := 0x85ebca6b#32) (c' := 0xa5cb9243#32) (by decide) h3
  have h5 := xorshift16_inj h4
  exact xor_right_inj' h5

theorem le32_leBytes32 (v : U32) :
    le32 (v.setWidth 8) ((v >>> 8).setWidth 8) ((v >>> 16).setWidth 8) ((v >>> 24).setWidth 8) = v := by
  unfold le32
  apply BitVec.eq_of_getLsbD_eq
  intro i hi
  simp only [BitVec.getLsbD_or, BitVec.getLsbD_shiftLeft, BitVec.getLsbD_ushiftRight, BitVec.getLsbD_setWidth]
  interval_cases i <;> simp

theorem murmur32_inj (seed : U32) {x y : U32} (h : murmur32 seed x = murmur32 seed y) : x = y := by
  unfold murmur32 murmurBytes leBytes32 at h
  have h1 := mmFinal_inj (n := 4) h
  unfold mmBody mmBody at h1
  rw [le32_leBytes32, le32_leBytes32] at h1
  exact mmRound_inj h1

end PSync
