import Verif.Model.Res
/-!
NDN-TLV primitives used by PSync through ndn-cxx.  ndn-cxx is not part of /repo; these
definitions model its documented behaviour (NDN Packet Format 0.3, ndn-cxx `encoding/tlv.hpp`,
`encoding/block.cpp`).  Byte strings are lists of `BitVec 8`.
-/
namespace PSync

/-- `uint8_t`. -/
abbrev Byte := BitVec 8
/-- A buffer. -/
abbrev Bytes := List Byte

/-- `w` big-endian bytes of `x` (boost::endian::endian_store<…, order::big>;
used at PSync/detail/iblt.cpp:143-150 and by ndn-cxx TLV numbers). -/
def beBytes : Nat → Nat → Bytes
  | 0, _ => []
  | w + 1, x => BitVec.ofNat 8 (x / 256 ^ w) :: beBytes w x

/-- Big-endian value of a byte string (boost::endian::endian_load<…, order::big>;
used at PSync/detail/iblt.cpp:99-106 and by ndn-cxx TLV numbers). -/
def beNat (bs : Bytes) : Nat := bs.foldl (fun acc b => acc * 256 + b.toNat) 0

/-- ndn-cxx VAR-NUMBER encoding (`prependVarNumber`), called at PSync/detail/state.cpp:66-67. -/
def varNum (n : Nat) : Bytes :=
  if n < 253 then beBytes 1 n
  else if n ≤ 0xFFFF then 253#8 :: beBytes 2 n
  else if n ≤ 0xFFFFFFFF then 254#8 :: beBytes 4 n
  else 255#8 :: beBytes 8 n

/-- Read `w` bytes big-endian. -/
def readBE (w : Nat) (bs : Bytes) : Option (Nat × Bytes) :=
  if bs.length < w then none else some (beNat (bs.take w), bs.drop w)

/-- ndn-cxx `tlv::readVarNumber` (non-minimal encodings are accepted). -/
def readVarNum : Bytes → Option (Nat × Bytes)
  | [] => none
  | b :: bs =>
    if b.toNat < 253 then some (b.toNat, bs)
    else if b.toNat = 253 then readBE 2 bs
    else if b.toNat = 254 then readBE 4 bs
    else readBE 8 bs

/-- ndn-cxx `tlv::readType`: type 0 and types above 2^32-1 are rejected. -/
def readType (bs : Bytes) : Option (Nat × Bytes) :=
  match readVarNum bs with
  | some (t, r) => if t = 0 ∨ t > 0xFFFFFFFF then none else some (t, r)
  | none => none

/-- A TLV block (type, value). -/
structure Tlv where
  type : Nat
  value : Bytes
  deriving DecidableEq, Repr

/-- Wire form of a block. -/
def Tlv.encode (b : Tlv) : Bytes := varNum b.type ++ (varNum b.value.length ++ b.value)

/-- Read one element from the front of a buffer (body of the loop of ndn-cxx `Block::parse`). -/
def readTlv (bs : Bytes) : Option (Tlv × Bytes) :=
  match readType bs with
  | none => none
  | some (t, r) =>
    match readVarNum r with
    | none => none
    | some (len, r') =>
      if r'.length < len then none else some (⟨t, r'.take len⟩, r'.drop len)

/-- ndn-cxx `Block::parse` on a TLV-VALUE: the sequence of sub-elements, or failure.
The first argument bounds the number of elements (every element consumes at least one byte). -/
def parseElemsAux : Nat → Bytes → Option (List Tlv)
  | _, [] => some []
  | 0, _ :: _ => none
  | n + 1, b :: bs =>
    match readTlv (b :: bs) with
    | none => none
    | some (e, r) =>
      match parseElemsAux n r with
      | none => none
      | some es => some (e :: es)

/-- ndn-cxx `Block::parse` with enough budget. -/
def parseElems (bs : Bytes) : Option (List Tlv) := parseElemsAux bs.length bs

/-- ndn-cxx `Block(ConstBufferPtr)`: the buffer must be exactly one TLV. -/
def readBlock (bs : Bytes) : Option Tlv :=
  match readTlv bs with
  | some (b, []) => some b
  | _ => none

/-- NonNegativeInteger encoding (ndn-cxx `Component::fromNumber`): 1, 2, 4 or 8 bytes. -/
def nniBytes (n : Nat) : Bytes :=
  if n ≤ 0xFF then beBytes 1 n
  else if n ≤ 0xFFFF then beBytes 2 n
  else if n ≤ 0xFFFFFFFF then beBytes 4 n
  else beBytes 8 n

/-- ndn-cxx `readNonNegativeInteger`: throws unless the size is 1, 2, 4 or 8. -/
def readNni (bs : Bytes) : Option Nat :=
  if bs.length = 1 ∨ bs.length = 2 ∨ bs.length = 4 ∨ bs.length = 8 then some (beNat bs) else none

end PSync
