import Verif.Model.Tlv
import Mathlib.Data.List.Lex
import Mathlib.Data.List.Sort
/-!
NDN names (ndn-cxx `Name`, `name::Component`), ordered maps keyed by names (`std::map<ndn::Name, _>`).
ndn-cxx is not part of /repo; only the operations PSync calls are modelled.
-/
namespace PSync

/-- A name component: TLV-TYPE and TLV-VALUE. -/
abbrev Component := Tlv

/-- ndn-cxx `Name`: the components in order. -/
abbrev Name := List Component

namespace TlvType
def name : Nat := 7                 -- tlv::Name
def generic : Nat := 8              -- tlv::GenericNameComponent
def segment : Nat := 50             -- tlv::SegmentNameComponent (typed naming convention)
def version : Nat := 54             -- tlv::VersionNameComponent (typed naming convention)
def psyncContent : Nat := 128       -- PSync/detail/state.hpp:27-29
end TlvType

/-- `Component::toNumber`; throws tlv::Error on a bad length. -/
def Component.toNumber (c : Component) : Res Nat := Res.ofOption .tlv (readNni c.value)

/-- `Component::isSegment` (typed convention). -/
def Component.isSegment (c : Component) : Bool :=
  c.type = TlvType.segment && (readNni c.value).isSome

/-- `Name::appendNumber` (GenericNameComponent). Called at PSync/producer-base.cpp:72,104,114,
PSync/full-producer.cpp:90,114,316,528, PSync/partial-producer.cpp:98,234,
PSync/detail/bloom-filter.cpp:239-240. -/
def Name.appendNumber (n : Name) (x : Nat) : Name := n ++ [⟨TlvType.generic, nniBytes x⟩]

/-- `Name::appendSegment`. Called at PSync/producer-base.cpp:129. -/
def Name.appendSegment (n : Name) (x : Nat) : Name := n ++ [⟨TlvType.segment, nniBytes x⟩]

/-- `Name::appendVersion(v)`. Called (without argument: current time) at PSync/segment-publisher.cpp:37. -/
def Name.appendVersion (n : Name) (x : Nat) : Name := n ++ [⟨TlvType.version, nniBytes x⟩]

/-- `Name::append(value)`: a generic component with the given bytes. -/
def Name.appendGeneric (n : Name) (v : Bytes) : Name := n ++ [⟨TlvType.generic, v⟩]

/-- `Name::getPrefix(-k)`.  For `k > size` ndn-cxx computes `getSubName(0, size - k)` with the
unsigned difference, i.e. the whole name. -/
def Name.dropLast (n : Name) (k : Nat) : Name :=
  if k ≤ n.length then n.take (n.length - k) else n

/-- `name.get(name.size() - k)` for `k ≥ 1`: the argument is converted to `ssize_t`, negative values
get `size()` added once, then the element vector is indexed without a check. -/
def Name.getFromEnd (n : Name) (k : Nat) : Res Component :=
  let i : Int := (n.length : Int) - k
  let i := if i < 0 then i + n.length else i
  if 0 ≤ i then
    match n[i.toNat]? with
    | some c => .ok c
    | none => .ub .outOfBounds
  else .ub .outOfBounds

/-- TLV-VALUE of the wire encoding of a name (`name.wireEncode().value()`),
used by murmurHash3 at PSync/detail/util.cpp:116-121. -/
def Name.wireValue (n : Name) : Bytes := n.flatMap Tlv.encode

/-- Name as TLV block of type 7. -/
def Name.toTlv (n : Name) : Tlv := ⟨TlvType.name, n.wireValue⟩

/-- `Name(Block)`: parse the sub-elements. -/
def Name.ofValue (v : Bytes) : Option Name := parseElems v

/-- Sort key of a component: canonical order compares type, then length, then bytes. -/
def Component.key (c : Component) : List Nat := c.type :: c.value.length :: c.value.map BitVec.toNat

/-- Canonical order on names (`Name::compare`), the order of `std::map<ndn::Name, _>`. -/
def Name.key (n : Name) : List (List Nat) := n.map Component.key

/-- `a < b` in canonical order. -/
def Name.lt (a b : Name) : Bool := decide (a.key < b.key)

/-- `std::map<ndn::Name, β>` as an association list in iteration order. -/
abbrev NMap (β : Type) := List (Name × β)

namespace NMap
variable {β : Type}

/-- `m.find(k)` (value or `end()`). -/
def find : NMap β → Name → Option β
  | [], _ => none
  | (k', v) :: m, k => if k' = k then some v else find m k

/-- `m[k] = v`: overwrite, or insert at the place given by the map order. -/
def set : NMap β → Name → β → NMap β
  | [], k, v => [(k, v)]
  | (k', v') :: m, k, v =>
    if k' = k then (k, v) :: m
    else if Name.lt k k' then (k, v) :: (k', v') :: m
    else (k', v') :: set m k v

/-- `m.erase(k)`. -/
def erase (m : NMap β) (k : Name) : NMap β := m.filter (fun kv => kv.1 ≠ k)

/-- `m.emplace(k, v)`: insert only if absent. -/
def emplace (m : NMap β) (k : Name) (v : β) : NMap β :=
  match find m k with
  | some _ => m
  | none => set m k v

/-- The keys in iteration order. -/
def keys (m : NMap β) : List Name := m.map Prod.fst

end NMap

end PSync
