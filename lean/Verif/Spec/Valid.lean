import Verif.Model.Name
/-!
Which blocks and names exist on the wire.
-/
namespace PSync

/-- A block that NDN-TLV can express. -/
def Tlv.Valid (b : Tlv) : Prop := b.type ≠ 0 ∧ b.type < 4294967296 ∧ b.value.length < 18446744073709551616

/-- A name whose components NDN-TLV can express. -/
def Name.Valid (n : Name) : Prop := ∀ c ∈ n, Tlv.Valid c

end PSync
