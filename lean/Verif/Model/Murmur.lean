import Verif.Model.Name
/-!
MurmurHash3 (x86, 32 bit) as in PSync/detail/util.cpp:51-121, bit exact.
Assumption: little-endian host on which unaligned 32-bit reads work (the code reads blocks through a pointer cast from a byte pointer of any
alignment, which the language leaves undefined; on the usual hosts it reads the four bytes).
-/
namespace PSync

/-- `uint32_t`, arithmetic modulo 2^32. -/
abbrev U32 := BitVec 32

/-- PSync/detail/util.cpp:51-55 `ROTL32`. -/
def rotl32 (x : U32) (r : Nat) : U32 := (x <<< r) ||| (x >>> (32 - r))

/-- Little-endian 32-bit block read: `blocks[i]`, PSync/detail/util.cpp:75. -/
def le32 (b0 b1 b2 b3 : Byte) : U32 :=
  b0.setWidth 32 ||| (b1.setWidth 32 <<< 8) ||| (b2.setWidth 32 <<< 16) ||| (b3.setWidth 32 <<< 24)

/-- First constant. -/
def mmC1 : U32 := 0xcc9e2d51#32   -- PSync/detail/util.cpp:65
/-- Second constant. -/
def mmC2 : U32 := 0x1b873593#32   -- PSync/detail/util.cpp:66

/-- Scramble of one block: PSync/detail/util.cpp:77-79. -/
def mmScramble (k : U32) : U32 := rotl32 (k * mmC1) 15 * mmC2

/-- One round of the body: PSync/detail/util.cpp:75-83. -/
def mmRound (h k : U32) : U32 := rotl32 (h ^^^ mmScramble k) 13 * 5#32 + 0xe6546b64#32

/-- Body and tail: PSync/detail/util.cpp:68-101.  The tail `switch` falls through, so a tail of
1, 2 or 3 bytes is mixed as one little-endian block without the final rotation. -/
def mmBody (h : U32) : Bytes → U32
  | b0 :: b1 :: b2 :: b3 :: rest => mmBody (mmRound h (le32 b0 b1 b2 b3)) rest
  | [b0, b1, b2] => h ^^^ mmScramble (b2.setWidth 32 <<< 16 ^^^ b1.setWidth 32 <<< 8 ^^^ b0.setWidth 32)
  | [b0, b1] => h ^^^ mmScramble (b1.setWidth 32 <<< 8 ^^^ b0.setWidth 32)
  | [b0] => h ^^^ mmScramble (b0.setWidth 32)
  | [] => h

/-- Finalization: PSync/detail/util.cpp:106-111. -/
def mmFinal (h : U32) (len : Nat) : U32 :=
  let h := h ^^^ BitVec.ofNat 32 len
  let h := h ^^^ (h >>> 16)
  let h := h * 0x85ebca6b#32
  let h := h ^^^ (h >>> 13)
  let h := h * 0xc2b2ae35#32
  h ^^^ (h >>> 16)

/-- PSync/detail/util.cpp:57-114 `murmurHash3(key, len, seed)`.
Simplification: `nblocks` is an `int` in the code; inputs of 8 GiB and more are not modelled. -/
def murmurBytes (bs : Bytes) (seed : U32) : U32 := mmFinal (mmBody seed bs) bs.length

/-- Little-endian memory image of a `uint32_t`. -/
def leBytes32 (v : U32) : Bytes :=
  [v.setWidth 8, (v >>> 8).setWidth 8, (v >>> 16).setWidth 8, (v >>> 24).setWidth 8]

/-- PSync/detail/util.hpp:39-43 `murmurHash3(seed, uint32_t)`. -/
def murmur32 (seed : U32) (v : U32) : U32 := murmurBytes (leBytes32 v) seed

/-- PSync/detail/util.cpp:116-121 `murmurHash3(seed, Name)`: hash of the TLV-VALUE. -/
def murmurName (seed : U32) (n : Name) : U32 := murmurBytes n.wireValue seed

end PSync
