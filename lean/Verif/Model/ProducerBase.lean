import Verif.Model.SegPub
/-!
`psync::ProducerBase`: PSync/producer-base.hpp, PSync/producer-base.cpp.
-/
namespace PSync

/-- `bm::bimap<unordered_set_of<uint32_t>, unordered_set_of<Name>>`, PSync/producer-base.hpp:165-167. -/
abbrev BiMap := List (U32 × Name)

namespace BiMap
/-- `left.find(h)`. -/
def findLeft (m : BiMap) (h : U32) : Option Name := (m.find? (fun e => e.1 = h)).map Prod.snd
/-- `right.find(n)`. -/
def findRight (m : BiMap) (n : Name) : Option U32 := (m.find? (fun e => e.2 = n)).map Prod.fst
/-- `insert({h, n})`: no effect if either side is already present. -/
def insert (m : BiMap) (h : U32) (n : Name) : BiMap :=
  if m.any (fun e => e.1 = h || e.2 = n) then m else (h, n) :: m
/-- `right.erase(it)` for the element with name `n`. -/
def eraseRight (m : BiMap) (n : Name) : BiMap := m.filter (fun e => e.2 ≠ n)
end BiMap

/-- History variable (not in the code): what was done to `m_prefixes`.  `after` is the map right after
the update. -/
inductive BaseEv where
  | update (p : Name) (old new : Nat) (after : NMap Nat)
  | remove (p : Name) (seq : Nat)
  deriving DecidableEq, Repr

/-- The data members of ProducerBase that change, PSync/producer-base.hpp:160-179.
(`m_segmentPublisher` is kept in the producer states.)  `hist` is a history variable: it is only
written, in updateSeqNo and removeUserNode, and never read by the model. -/
structure Base where
  iblt : Table
  prefixes : NMap Nat
  biMap : BiMap
  numOwn : Nat
  hist : List BaseEv
  deriving DecidableEq, Repr

/-- PSync/producer-base.cpp:30-50 constructor. -/
def Base.new (cfg : Cfg) : Base := ⟨Table.new cfg.expected, [], [], 0, []⟩

/-- PSync/producer-base.hpp:82-90 `getSeqNo`. -/
def Base.getSeqNo (b : Base) (p : Name) : Option Nat := b.prefixes.find p

/-- PSync/producer-base.cpp:52-62 `addUserNode`. -/
def Base.addUserNode (b : Base) (p : Name) : Bool × Base :=
  match b.prefixes.find p with
  | none => (true, { b with prefixes := b.prefixes.set p 0 })
  | some _ => (false, b)

/-- `detail::murmurHash3(detail::N_HASHCHECK, name)`, PSync/producer-base.cpp:115. -/
def nameHash (n : Name) : U32 := murmurName N_HASHCHECK n

/-- The block shared by PSync/producer-base.cpp:72-77 and :104-109: if `prefix/seq` is in the bimap,
erase its hash from the IBF and the pair from the bimap. -/
def Base.eraseName (b : Base) (pws : Name) : Res Base :=
  match b.biMap.findRight pws with
  | some h => Res.bind (b.iblt.erase h) fun t => .ok { b with iblt := t, biMap := b.biMap.eraseRight pws }
  | none => .ok b

/-- PSync/producer-base.cpp:64-79 `removeUserNode`. -/
def Base.removeUserNode (b : Base) (p : Name) : Res Base :=
  match b.prefixes.find p with
  | none => .ok b
  | some seq =>
    Base.eraseName { b with prefixes := b.prefixes.erase p, hist := b.hist ++ [.remove p seq] }
      (Name.appendNumber p seq)

/-- PSync/producer-base.cpp:81-120 `updateSeqNo`. -/
def Base.updateSeqNo (b : Base) (p : Name) (seq : Nat) : Res Base :=
  match b.prefixes.find p with
  | none => .ok b
  | some oldSeq =>
    if oldSeq ≥ seq then .ok b
    else
      Res.bind (if oldSeq ≠ 0 then b.eraseName (Name.appendNumber p oldSeq) else .ok b) fun b =>
      let pws := Name.appendNumber p seq
      let h := nameHash pws
      Res.bind (b.iblt.insert h) fun t =>
      .ok { iblt := t
            prefixes := b.prefixes.set p seq
            biMap := b.biMap.insert h pws
            numOwn := (b.numOwn + (seq - oldSeq)) % U64
            hist := b.hist ++ [.update p oldSeq seq (b.prefixes.set p seq)] }

/-- `m_prefixes[p]` used as an rvalue: inserts 0 when absent. -/
def Base.index (b : Base) (p : Name) : Nat × Base :=
  match b.prefixes.find p with
  | some s => (s, b)
  | none => (0, { b with prefixes := b.prefixes.set p 0 })

/-- PSync/producer-base.cpp:122-137 `sendApplicationNack`: the nack Data. -/
def nackData (cfg : Cfg) (b : Base) (name : Name) : Res Data :=
  Res.bind (b.iblt.toComponent cfg.ibltCodec) fun c =>
  let dataName := Name.appendSegment (name ++ [c]) 0
  .ok { name := dataName, contentType := .nack, content := [], freshness := cfg.freshness,
        finalBlock := some ⟨TlvType.segment, nniBytes 0⟩ }

end PSync
