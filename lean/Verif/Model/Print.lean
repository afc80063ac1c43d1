import Verif.Model.CommandLine
import Verif.Model.Iblt
import Verif.Model.Bloom
/-!
Printing: the stream operators of IBLT, BloomFilter and State.
-/
namespace PSync

/-- Printing an `int32_t` in decimal. -/
def intText (z : Int) : Bytes := if z < 0 then 45#8 :: decimal z.natAbs else decimal z.toNat

/-- "true" or "false". -/
def boolText (b : Bool) : Bytes :=
  if b then [116#8, 114#8, 117#8, 101#8] else [102#8, 97#8, 108#8, 115#8, 101#8]

/-- One line, PSync/detail/iblt.cpp:162-164: count, key sum, and whether the entry is empty or its check value fits. -/
def Cell.print (c : Cell) : Bytes :=
  intText c.count ++ 32#8 :: (decimal c.keySum.toNat ++ 32#8 ::
    (boolText (c.isEmpty || decide (murmur32 N_HASHCHECK c.keySum = c.keyCheck)) ++ [10#8]))

/-- "count keySum keyCheckMatch\n". -/
def tableHeader : Bytes :=
  [99#8, 111#8, 117#8, 110#8, 116#8, 32#8, 107#8, 101#8, 121#8, 83#8, 117#8, 109#8, 32#8, 107#8, 101#8, 121#8, 67#8, 104#8, 101#8,
   99#8, 107#8, 77#8, 97#8, 116#8, 99#8, 104#8, 10#8]

/-- PSync/detail/iblt.cpp:157-167 `operator<<`. -/
def Table.print (t : Table) : Bytes := tableHeader ++ t.flatMap Cell.print

/-- A hexadecimal digit in lower case. -/
def hexChar (d : Nat) : Byte := if d < 10 then BitVec.ofNat 8 (48 + d) else BitVec.ofNat 8 (87 + d)

/-- PSync/detail/bloom-filter.hpp:126-131 `operator<<`: `ndn::printHex(os, bit_table_, false)`, two digits in lower case per byte. -/
def Bloom.print (b : Bloom) : Bytes := b.bits.flatMap fun x => [hexChar (x.toNat / 16), hexChar (x.toNat % 16)]

/-- `ndn::make_ostream_joiner(os, ", ")`. -/
def joinText : List Bytes → Bytes
  | [] => []
  | [a] => a
  | a :: b :: r => a ++ 44#8 :: 32#8 :: joinText (b :: r)

/-- PSync/detail/state.cpp:96-106 `operator<<`; `uri` is how ndn-cxx prints a name. -/
def printNames (uri : Name → Bytes) (content : List Name) : Bytes := 91#8 :: (joinText (content.map uri) ++ [93#8])

end PSync
