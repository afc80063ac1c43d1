import Verif.Model.Murmur
/-!
Invertible Bloom Lookup Table: PSync/detail/iblt.hpp, PSync/detail/iblt.cpp.
-/
namespace PSync

/-- Values representable in `int32_t`. -/
def inI32 (x : Int) : Bool := decide (-2147483648 ≤ x) && decide (x < 2147483648)

/-- PSync/detail/iblt.hpp:60-84 `HashTableEntry`. `count` is an `int32_t`: every arithmetic result is
range checked (`inI32`), leaving the range is undefined behaviour. -/
structure Cell where
  count : Int
  keySum : U32
  keyCheck : U32
  deriving DecidableEq, Repr

/-- A default-initialised entry, PSync/detail/iblt.hpp:62-64. -/
def Cell.zero : Cell := ⟨0, 0#32, 0#32⟩

/-- Number of hash functions. -/
def N_HASH : Nat := 3          -- PSync/detail/iblt.hpp:86
/-- Seed of the check value. -/
def N_HASHCHECK : U32 := 11#32 -- PSync/detail/iblt.hpp:87
/-- Bytes per entry on the wire. -/
def ENTRY_SIZE : Nat := 12     -- PSync/detail/iblt.cpp:55-56

/-- PSync/detail/iblt.cpp:58-67 `HashTableEntry::isPure`. -/
def Cell.isPure (c : Cell) : Bool :=
  if c.count = 1 ∨ c.count = -1 then c.keyCheck = murmur32 N_HASHCHECK c.keySum else false

/-- PSync/detail/iblt.cpp:69-73 `HashTableEntry::isEmpty`. -/
def Cell.isEmpty (c : Cell) : Bool := c.count = 0 && c.keySum = 0#32 && c.keyCheck = 0#32

/-- `m_hashTable`. -/
abbrev Table := List Cell

/-- Number of cells: PSync/detail/iblt.cpp:79-84. (`size_t` arithmetic; the API passes a `uint32_t`
count, so no wrap-around.) -/
def nCells (expected : Nat) : Nat :=
  let n := expected + expected / 2
  let r := n % N_HASH
  if r ≠ 0 then n + (N_HASH - r) else n

/-- PSync/detail/iblt.cpp:75-87 constructor: all cells zero. -/
def Table.new (expected : Nat) : Table := List.replicate (nCells expected) Cell.zero

/-- Cell index of `key` under hash `i`: PSync/detail/iblt.cpp:116-118. -/
def cellIdx (b : Nat) (i : Nat) (key : U32) : Nat :=
  i * b + (murmur32 (BitVec.ofNat 32 i) key).toNat % b

/-- PSync/detail/iblt.cpp:119-121: update of one cell. -/
def Cell.update (c : Cell) (pm : Int) (key : U32) : Res Cell :=
  if inI32 (c.count + pm) then
    .ok ⟨c.count + pm, c.keySum ^^^ key, c.keyCheck ^^^ murmur32 N_HASHCHECK key⟩
  else .ub .signedOverflow

/-- PSync/detail/iblt.cpp:118-121: `ht.at(idx)` (throws if out of range) and its update. -/
def Table.updateAt (t : Table) (idx : Nat) (pm : Int) (key : U32) : Res Table :=
  match t[idx]? with
  | none => .throw .outOfRange
  | some c => Res.bind (c.update pm key) (fun c' => .ok (t.set idx c'))

/-- PSync/detail/iblt.cpp:110-123 `ibltUpdate`.  `h % bucketsPerHash` with zero buckets is undefined. -/
def ibltUpdate (t : Table) (pm : Int) (key : U32) : Res Table :=
  let b := t.length / N_HASH
  if b = 0 then .ub .divByZero
  else foldRes (fun t i => Table.updateAt t (cellIdx b i key) pm key) t (List.range N_HASH)

/-- PSync/detail/iblt.cpp:125-129 `IBLT::insert`. -/
def Table.insert (t : Table) (key : U32) : Res Table := ibltUpdate t 1 key

/-- PSync/detail/iblt.cpp:131-135 `IBLT::erase`. -/
def Table.erase (t : Table) (key : U32) : Res Table := ibltUpdate t (-1) key

/-- `std::set<uint32_t>::insert` on the ascending list of elements. -/
def setInsert (s : List U32) (k : U32) : List U32 :=
  match s with
  | [] => [k]
  | x :: s' => if k = x then s else if k.toNat < x.toNat then k :: s else x :: setInsert s' k

/-- Local variables of the peeling loop, PSync/detail/iblt.cpp:176-190. -/
structure Peel where
  table : Table
  positive : List U32
  negative : List U32
  nErased : Nat
  deriving DecidableEq, Repr

/-- Loop body for the entry at index `j`, PSync/detail/iblt.cpp:193-204. The range-for walks the live
vector, so it sees the updates made earlier in the same pass. -/
def peelAt (p : Peel) (j : Nat) : Res Peel :=
  match p.table[j]? with
  | none => .ok p
  | some e =>
    if e.isPure then
      Res.bind (ibltUpdate p.table (-e.count) e.keySum) fun t' =>
        if e.count = 1 then
          .ok { table := t', positive := setInsert p.positive e.keySum, negative := p.negative,
                nErased := p.nErased + 1 }
        else
          .ok { table := t', positive := p.positive, negative := setInsert p.negative e.keySum,
                nErased := p.nErased + 1 }
    else .ok p

/-- One pass of the do-while body, PSync/detail/iblt.cpp:192-204. -/
def peelPass (p : Peel) : Res Peel :=
  foldRes peelAt { p with nErased := 0 } (List.range p.table.length)

/-- The do-while loop, PSync/detail/iblt.cpp:191-205, with an evaluation budget of `fuel` passes. -/
def peelLoop : Nat → Peel → Res Peel
  | 0, _ => .hang
  | fuel + 1, p =>
    Res.bind (peelPass p) fun p' => if p'.nErased > 0 then peelLoop fuel p' else .ok p'

/-- PSync/detail/iblt.hpp:165-175 `IBLTDiff`; the sets are ascending lists. -/
structure IBLTDiff where
  canDecode : Bool
  positive : List U32
  negative : List U32
  deriving DecidableEq, Repr

/-- Cell difference, PSync/detail/iblt.cpp:178-184. -/
def Cell.sub (l r : Cell) : Res Cell :=
  if inI32 (l.count - r.count) then
    .ok ⟨l.count - r.count, l.keySum ^^^ r.keySum, l.keyCheck ^^^ r.keyCheck⟩
  else .ub .signedOverflow

/-- `std::transform` over both tables, PSync/detail/iblt.cpp:174-185 (sizes must agree). -/
def Table.sub : Table → Table → Res Table
  | [], [] => .ok []
  | l :: ls, r :: rs => Res.bind (l.sub r) fun c => Res.bind (Table.sub ls rs) fun cs => .ok (c :: cs)
  | _, _ => .ub .assertion

/-- PSync/detail/iblt.cpp:169-212 `operator-`. -/
def Table.diff (fuel : Nat) (l r : Table) : Res IBLTDiff :=
  Res.bind (Table.sub l r) fun t =>
  Res.bind (peelLoop fuel { table := t, positive := [], negative := [], nErased := 0 }) fun p =>
  .ok { canDecode := p.table.all Cell.isEmpty, positive := p.positive, negative := p.negative }

/-! ### Wire format -/

/-- Two's complement 32-bit image of an in-range count. -/
def i32ToNat (x : Int) : Nat := (x % 4294967296).toNat

/-- `int32_t` value of a 32-bit image. -/
def natToI32 (n : Nat) : Int := if n < 2147483648 then (n : Int) else (n : Int) - 4294967296

/-- PSync/detail/iblt.cpp:143-150: 12 bytes per cell. -/
def Cell.encode (c : Cell) : Bytes :=
  beBytes 4 (i32ToNat c.count) ++ (beBytes 4 c.keySum.toNat ++ beBytes 4 c.keyCheck.toNat)

/-- PSync/detail/iblt.cpp:139-151: the concatenated entries. -/
def Table.encode (t : Table) : Bytes := t.flatMap Cell.encode

/-- PSync/detail/iblt.cpp:98-107: read `n` cells from the buffer. -/
def Table.decode : Nat → Bytes → Table
  | 0, _ => []
  | n + 1, bs =>
    ⟨natToI32 (beNat (bs.take 4)),
     BitVec.ofNat 32 (beNat ((bs.drop 4).take 4)),
     BitVec.ofNat 32 (beNat ((bs.drop 8).take 4))⟩ :: Table.decode n (bs.drop 12)

/-- A compression scheme: PSync/detail/util.cpp:123-239.  `none` = exception
(unsupported scheme, or malformed compressed input). The algorithms live in Boost.Iostreams. -/
structure Codec where
  compress : Bytes → Option Bytes
  decompress : Bytes → Option Bytes

/-- CompressionScheme::NONE, PSync/detail/util.cpp:131-132,190-191. -/
def Codec.none : Codec := ⟨some, some⟩

/-- A scheme that was not compiled in: every call throws, PSync/detail/util.cpp:138-140. -/
def Codec.unsupported : Codec := ⟨fun _ => Option.none, fun _ => Option.none⟩

/-- The law expected from every supported scheme. -/
def Codec.Lossless (c : Codec) : Prop := ∀ x, ∃ y, c.compress x = some y ∧ c.decompress y = some x

/-- PSync/detail/iblt.cpp:137-155 `IBLT::appendToName`: the appended component. -/
def Table.toComponent (cdc : Codec) (t : Table) : Res Component :=
  Res.bind (Res.ofOption .compression (cdc.compress t.encode)) fun bs => .ok ⟨TlvType.generic, bs⟩

/-- PSync/detail/iblt.cpp:89-108 `IBLT::initialize` on an IBLT built for `expected` entries. -/
def Table.initialize (cdc : Codec) (expected : Nat) (c : Component) : Res Table :=
  Res.bind (Res.ofOption .compression (cdc.decompress c.value)) fun bs =>
  if bs.length ≠ ENTRY_SIZE * nCells expected then .throw .iblt
  else .ok (Table.decode (nCells expected) bs)

end PSync
