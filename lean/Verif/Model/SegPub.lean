import Verif.Model.Packet
/-!
`psync::SegmentPublisher`: PSync/segment-publisher.hpp, PSync/segment-publisher.cpp, with the ndn-cxx
`Segmenter` and `InMemoryStorageFifo` it uses.
-/
namespace PSync

/-- `ndn::MAX_NDN_PACKET_SIZE >> 1`, PSync/segment-publisher.cpp:38. -/
def maxSegment : Nat := 8800 / 2

/-- Cut a buffer into pieces of at most `n` bytes (ndn-cxx `Segmenter`); the first argument bounds
the number of pieces. -/
def chunksAux : Nat → Nat → Bytes → List Bytes
  | 0, _, _ => []
  | fuel + 1, n, bs => if bs.length ≤ n then [bs] else bs.take n :: chunksAux fuel n (bs.drop n)

/-- At least one (possibly empty) piece. -/
def chunks (n : Nat) (bs : Bytes) : List Bytes := chunksAux (bs.length + 1) n bs

/-- ndn-cxx `Segmenter::segment(buffer, name, maxSegment, freshness)` (content type Blob);
called at PSync/segment-publisher.cpp:37-38. -/
def segmentData (name : Name) (bs : Bytes) (freshness : Nat) : List Data :=
  let cs := chunks maxSegment bs
  (List.range cs.length).map fun i =>
    { name := name.appendSegment i, contentType := .blob, content := cs.getD i [],
      freshness := freshness, finalBlock := some ⟨TlvType.segment, nniBytes (cs.length - 1)⟩ }

/-- PSync/segment-publisher.hpp:63-68.  `store`: packets, oldest first (FIFO eviction order).
`timers`: the scheduled erasures (deadline, data name). -/
structure SegPub where
  store : List Data
  timers : List (Nat × Name)
  deriving DecidableEq, Repr

/-- Nothing published yet. -/
def SegPub.empty : SegPub := ⟨[], []⟩

/-- ndn-cxx `InMemoryStorageFifo::insert`: identical packets are ignored; when `limit` packets are
stored the oldest is evicted.  (The capacity doubling below the limit is not observable.) -/
def storeInsert (limit : Nat) (st : List Data) (d : Data) : List Data :=
  if d ∈ st then st
  else (if st.length ≥ limit then st.tail else st) ++ [d]

/-- ndn-cxx `InMemoryStorage::find(Name)`: the first packet in canonical name order whose name the
given name prefixes.  No freshness check. -/
def storeFind (st : List Data) (n : Name) : Option Data :=
  (st.filter (fun d => n.isPrefixOf d.name)).foldl
    (fun best d =>
      match best with
      | none => some d
      | some b => if Name.lt d.name b.name then some d else some b) none

/-- ndn-cxx `InMemoryStorage::erase(name)` (prefix match). -/
def storeErase (st : List Data) (n : Name) : List Data := st.filter (fun d => !n.isPrefixOf d.name)

/-- PSync/segment-publisher.cpp:33-53 `publish`; returns the Data put on the face. -/
def SegPub.publish (limit : Nat) (p : SegPub) (now version : Nat) (interestName dataName : Name)
    (buffer : Bytes) (freshness : Nat) : Res (SegPub × List Data) :=
  let segs := segmentData (dataName.appendVersion version) buffer freshness
  let p' : SegPub :=
    { store := segs.foldl (storeInsert limit) p.store
      timers := p.timers ++ segs.map (fun d => (now + freshness, d.name)) }
  Res.bind (interestName.getFromEnd 1) fun last =>
  Res.bind (if last.isSegment then last.toNumber else .ok 0) fun seg =>
  .ok (p', match segs[seg]? with
           | some d => [d]
           | none => [])

/-- PSync/segment-publisher.cpp:55-64 `replyFromStore`. -/
def SegPub.replyFromStore (p : SegPub) (interestName : Name) : Option Data :=
  storeFind p.store interestName

/-- The erasure timers that are due at `now` run, PSync/segment-publisher.cpp:41. -/
def SegPub.fire (p : SegPub) (now : Nat) : SegPub :=
  { store := (p.timers.filter (fun t => t.1 ≤ now)).foldl (fun st t => storeErase st t.2) p.store
    timers := p.timers.filter (fun t => ¬ t.1 ≤ now) }

end PSync
