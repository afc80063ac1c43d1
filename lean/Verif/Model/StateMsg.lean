import Verif.Model.Name
/-!
`psync::detail::State`: PSync/detail/state.hpp:35-77, PSync/detail/state.cpp.
-/
namespace PSync

/-- PSync/detail/state.hpp:74-76: the names and the cached wire encoding (`m_wire`). -/
structure StateMsg where
  content : List Name
  wire : Option Bytes
  deriving DecidableEq, Repr

/-- Default constructor, PSync/detail/state.hpp:38. -/
def StateMsg.empty : StateMsg := ⟨[], none⟩

/-- PSync/detail/state.cpp:32-37 `addContent`: drops the cached wire. -/
def StateMsg.addContent (s : StateMsg) (n : Name) : StateMsg := ⟨s.content ++ [n], none⟩

/-- PSync/detail/state.cpp:56-70: the names are prepended in reverse order, then length and type. -/
def encodeNames (ns : List Name) : Bytes :=
  Tlv.encode ⟨TlvType.psyncContent, ns.flatMap (fun n => n.toTlv.encode)⟩

/-- PSync/detail/state.cpp:39-54 `wireEncode`: returns the cached wire if there is one. -/
def StateMsg.wireEncode (s : StateMsg) : Bytes × StateMsg :=
  match s.wire with
  | some w => (w, s)
  | none => (encodeNames s.content, { s with wire := some (encodeNames s.content) })

/-- One element of the loop PSync/detail/state.cpp:86-93. -/
def decodeNameElem (e : Tlv) : Option Name :=
  if e.type = TlvType.name then Name.ofValue e.value else none

/-- The loop PSync/detail/state.cpp:86-93. -/
def decodeNameElems : List Tlv → Option (List Name)
  | [] => some []
  | e :: es =>
    match decodeNameElem e with
    | none => none
    | some n =>
      match decodeNameElems es with
      | none => none
      | some ns => some (n :: ns)

/-- PSync/detail/state.cpp:74-94 `wireDecode` applied to `ndn::Block(buffer)`.
Any malformed input throws `ndn::tlv::Error`. -/
def StateMsg.wireDecode (raw : Bytes) : Res StateMsg :=
  match readBlock raw with
  | none => .throw .tlv
  | some blk =>
    if blk.type ≠ TlvType.psyncContent then .throw .tlv
    else
      match parseElems blk.value with
      | none => .throw .tlv
      | some es =>
        match decodeNameElems es with
        | none => .throw .tlv
        | some ns => .ok ⟨ns, some raw⟩

end PSync
