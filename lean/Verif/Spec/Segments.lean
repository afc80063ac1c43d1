import Verif.Model.SegPub
/-!
The segment publisher as a client sees it: what was published when, and what it may hand out.
-/
namespace PSync.Spec

/-- What happens to a segment publisher. -/
inductive SegOp where
  | publish (version : Nat) (interestName dataName : Name) (buffer : Bytes) (freshness : Nat)
  | tick (t : Nat)     -- the clock moves; timers that become due run first
  deriving DecidableEq, Repr

/-- A packet, and the time until which it may be served. -/
structure Published where
  data : Data
  expiry : Nat
  deriving DecidableEq, Repr

/-- The publisher, the clock, and the record of everything published so far. -/
structure SegSys where
  pub : SegPub
  now : Nat
  published : List Published
  deriving DecidableEq, Repr

/-- The packets publish() is meant to produce for a buffer. -/
structure IsSegmentation (name : Name) (buffer : Bytes) (freshness : Nat) (segs : List Data) : Prop where
  nonempty : 0 < segs.length
  content : (segs.map Data.content).flatten = buffer
  size : ∀ d ∈ segs, d.content.length ≤ 4400
  full : ∀ i d, segs[i]? = some d → i + 1 < segs.length → d.content.length = 4400
  used : buffer ≠ [] → ∀ d ∈ segs, d.content ≠ []
  name : ∀ i d, segs[i]? = some d → d.name = name ++ [⟨50, nniBytes i⟩]
  final : ∀ d ∈ segs, d.finalBlock = some ⟨50, nniBytes (segs.length - 1)⟩
  fresh : ∀ d ∈ segs, d.freshness = freshness ∧ d.contentType = .blob

/-- The packet of a reply that is sent at once: the one whose number the Interest name ends with, number 0
if it ends with something else. -/
def asked (interestName : Name) (segs : List Data) : List Data :=
  match interestName.getLast? with
  | none => []
  | some c =>
    if c.type = 50 then
      match readNni c.value with
      | some k => segs[k]?.toList
      | none => segs[0]?.toList
    else segs[0]?.toList

/-- `ds` is what is sent at once when `buffer` is published under `dataName` in answer to an Interest. -/
def SentFor (interestName dataName : Name) (buffer : Bytes) (freshness : Nat) (ds : List Data) : Prop :=
  ∃ version segs, IsSegmentation (dataName.appendVersion version) buffer freshness segs ∧ ds = asked interestName segs

/-- How many packets the replies (name, buffer, freshness) from number `k` on take. -/
def packetsSince (replies : List (Name × Bytes × Nat)) (k : Nat) : Nat :=
  ((replies.drop k).map (fun e => max 1 ((e.2.1.length + 4399) / 4400))).sum

def SegSys.init : SegSys := ⟨SegPub.empty, 0, []⟩

/-- One event of a segment publisher with a store of `limit` packets. -/
def SegSys.step (limit : Nat) (s : SegSys) : SegOp → Res SegSys
  | .publish v iname dname buf fr =>
    Res.bind (s.pub.publish limit s.now v iname dname buf fr) fun r =>
    .ok { s with
      pub := r.1
      published := s.published ++ (segmentData (dname.appendVersion v) buf fr).map (fun d => ⟨d, s.now + fr⟩) }
  | .tick t => .ok (if s.now ≤ t then { s with now := t, pub := s.pub.fire t } else s)

def SegSys.run (limit : Nat) (s : SegSys) (ops : List SegOp) : Res SegSys := foldRes (SegSys.step limit) s ops

end PSync.Spec
