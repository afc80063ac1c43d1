import Verif.Model.StateMsg
/-!
The NDN-TLV grammar as a relation between bytes and values, independent of the parser.
-/
namespace PSync.Spec

/-- Value of a big-endian byte string, least significant byte last. -/
def beValue : Bytes → Nat
  | [] => 0
  | b :: bs => b.toNat * 256 ^ bs.length + beValue bs

/-- `bs` is a VAR-NUMBER encoding of `n` (not necessarily the shortest). -/
inductive IsVarNum : Nat → Bytes → Prop
  | one (b : Byte) : b.toNat < 253 → IsVarNum b.toNat [b]
  | two (bs : Bytes) : bs.length = 2 → IsVarNum (beValue bs) (253#8 :: bs)
  | four (bs : Bytes) : bs.length = 4 → IsVarNum (beValue bs) (254#8 :: bs)
  | eight (bs : Bytes) : bs.length = 8 → IsVarNum (beValue bs) (255#8 :: bs)

/-- `bs` is an element with the given type and value. -/
def IsElem (b : Tlv) (bs : Bytes) : Prop :=
  ∃ tb lb, IsVarNum b.type tb ∧ IsVarNum b.value.length lb ∧ b.type ≠ 0 ∧ b.type < 2 ^ 32 ∧
    bs = tb ++ (lb ++ b.value)

/-- `bs` is the concatenation of the elements. -/
inductive IsSeq : List Tlv → Bytes → Prop
  | nil : IsSeq [] []
  | cons (e : Tlv) (es : List Tlv) (b1 b2 : Bytes) : IsElem e b1 → IsSeq es b2 → IsSeq (e :: es) (b1 ++ b2)

/-- `bs` is the concatenation of Name elements (type 7). -/
inductive IsNames : List Name → Bytes → Prop
  | nil : IsNames [] []
  | cons (n : Name) (ns : List Name) (v b1 b2 : Bytes) : IsSeq n v → IsElem ⟨7, v⟩ b1 → IsNames ns b2 →
      IsNames (n :: ns) (b1 ++ b2)

/-- `raw` is a PSyncContent block (type 128) with the given names. -/
def IsContent (raw : Bytes) (ns : List Name) : Prop :=
  ∃ v, IsElem ⟨128, v⟩ raw ∧ IsNames ns v

/-- Calls on a `State` object. -/
inductive StOp where
  | add (n : Name)
  | encode
  deriving DecidableEq, Repr

def StOp.apply (s : StateMsg) : StOp → StateMsg
  | .add n => s.addContent n
  | .encode => s.wireEncode.2

/-- The names added by a sequence of calls, in order. -/
def added : List StOp → List Name
  | [] => []
  | .add n :: ops => n :: added ops
  | .encode :: ops => added ops

end PSync.Spec
