import Verif.Spec.Consumer
import Verif.Spec.Partial
import Verif.Spec.Bloom
import Verif.Spec.Group
/-!
A partial-sync producer and a consumer over a network.

Each event happens at the producer or at the consumer.  The producer may receive any Interests at any time
(those of the consumer, any number of times or never, those of other consumers, crafted ones).  A fetch of
the consumer may complete with any packets the producer has ever sent that satisfy the Interest.  So loss,
delay, duplication, reordering and caching are all covered; what is excluded is only that a fetch completes
with packets the producer has not sent.
-/
namespace PSync.Spec

/-- An event at the producer or at the consumer. -/
inductive PSEv where
  | prod (op : Part.Op)
  | cons (op : Cons.Op)
  deriving DecidableEq

/-- The Interests with names under `pre` that were sent, in order. -/
def askedUnder (pre : Name) (log : List Out) : List Name :=
  log.filterMap (fun o => match o with
    | .interest n _ => if pre.isPrefixOf n then some n else none
    | _ => none)

/-- The fetch that the consumer started with its last Interest under `pre` before event `n` has delivered
`buf`: the packets received since then (events `seg d`) are those of a completed fetch. -/
def FetchDone (sent : Data → Prop) (C : Nat → Cons) (what : Nat → PSEv) (pre : Name) (seg : Data → Cons.Op) (n : Nat)
    (buf : Bytes) : Prop :=
  ∃ m < n, ∃ name segs,
    askedUnder pre (C m).log ≠ askedUnder pre (C (m + 1)).log ∧ askedUnder pre (C n).log = askedUnder pre (C (m + 1)).log ∧
    (askedUnder pre (C n).log).getLast? = some name ∧ Fetched sent name segs buf ∧
    ∀ d, d ∈ segs ↔ ∃ k, m < k ∧ k < n ∧ what k = .cons (seg d)

/-- One event of a run. -/
inductive PSStep (pc : Cfg) (cc : CCfg) (P : Nat → Part) (C : Nat → Cons) (what : Nat → PSEv) (n : Nat) : Prop
  | prod (op : Part.Op) : what n = .prod op → Part.step pc (P n) op = .ok (P (n + 1)) → C (n + 1) = C n →
      PSStep pc cc P C what n
  | cons (op : Cons.Op) : what n = .cons op → Cons.step cc (C n) op = .ok (C (n + 1)) → P (n + 1) = P n →
      (∀ buf acts, op = .syncComplete buf acts →
        FetchDone (fun d => Out.data d ∈ (P n).log) C what (cc.syncPrefix ++ [SYNC]) .syncSegment n buf) →
      (∀ buf acts acts', op = .helloComplete buf acts acts' →
        FetchDone (fun d => Out.data d ∈ (P n).log) C what (cc.syncPrefix ++ [HELLO]) .helloSegment n buf) →
      PSStep pc cc P C what n

/-- A run of a producer and a consumer: the states after each number of events. -/
structure PSRun (pc : Cfg) (cc : CCfg) (P : Nat → Part) (C : Nat → Cons) (what : Nat → PSEv) (len : Nat) : Prop where
  initP : P 0 = Part.init pc
  initC : Cons.init cc = .ok (C 0)
  step : ∀ n < len, PSStep pc cc P C what n

/-- What producer and consumer must agree on.  The false positive probability survives the transmission in
thousandths. -/
structure Matching (pc : Cfg) (cc : CCfg) : Prop where
  syncPrefix : cc.syncPrefix = pc.syncPrefix
  libm : cc.libm = pc.libm
  extraSalt : cc.extraSalt = pc.extraSalt
  count : cc.bfCount < 2 ^ 32
  filter : ∃ bf, freshFilter cc = .ok bf ∧ SizedBf bf
  thousandths : ∃ th, cc.libm.toThousandths cc.bfFpp = some th ∧ th < 2 ^ 64 ∧
    optimalParams cc.libm cc.bfCount (cc.libm.ofThousandths th) = optimalParams cc.libm cc.bfCount cc.bfFpp
  expected : 0 < pc.expected
  codec : pc.ibltCodec.Lossless

/-- The regularities of a run: prefixes are names, replies are not as long as the address space, replies made in the
same millisecond under the same name are the same, and hashes of published names do not collide. -/
structure Regular (pc : Cfg) (P : Nat → Part) (what : Nat → PSEv) (len : Nat) : Prop where
  names : ∀ k < len, ∀ p, what k = .prod (.addUserNode p) → p.Valid
  buffers : ∀ e ∈ (P len).replies, e.2.1.length < 2 ^ 64
  version_lt : ∀ a < (P len).replies.length, pc.version a < 2 ^ 64
  versions : ∀ (a b : Nat) (e e' : Name × Bytes × Nat), (P len).replies[a]? = some e → (P len).replies[b]? = some e' →
    e.1 = e'.1 → pc.version a = pc.version b → e = e'
  collisions : NoCollisionsIn pc.expected (fun p q => (p, q) ∈ (P len).made)

/-- The IBF the consumer holds is the one the producer had in state `r`. -/
def HoldsIbf (pc : Cfg) (s : Cons) (r : Part) : Prop :=
  ∃ c, r.base.iblt.toComponent pc.ibltCodec = .ok c ∧ s.iblt = [c]

/-- The consumer has at least the producer's number for every subscribed prefix. -/
def UpToDate (s : Cons) (r : Part) : Prop :=
  ∀ p x, s.isSubscribed p = true → r.base.getSeqNo p = some x → ∃ y, s.getSeqNo p = some y ∧ x ≤ y

/-- No subscription is added while a sync Interest is pending; `busy` says whether one is pending before the
calls. -/
def NoneAdded (busy : Bool) : List Cons.Call → Prop
  | [] => True
  | .addSubscription _ _ _ :: cs => busy = false ∧ NoneAdded busy cs
  | .sendSync :: cs => NoneAdded true cs
  | .stop :: cs => NoneAdded false cs
  | .removeSubscription _ :: cs => NoneAdded busy cs
  | .sendHello :: cs => NoneAdded busy cs

/-- No subscription is added during the event while a sync Interest is pending. -/
def AddsInTime (s : Cons) : Cons.Op → Prop
  | .call c => NoneAdded (decide (s.syncFetcher = some true)) [c]
  | .helloComplete _ a1 a2 => NoneAdded (decide (s.syncFetcher = some true)) (a1 ++ a2)
  | .syncComplete _ a => NoneAdded false a
  | _ => True

/-- Subscriptions are added while no sync Interest is pending, and with a number at least as high as the
producer's at the time of the IBF the consumer holds then. -/
structure Careful (pc : Cfg) (P : Nat → Part) (C : Nat → Cons) (what : Nat → PSEv) (len : Nat) : Prop where
  inTime : ∀ n < len, ∀ op, what n = .cons op → AddsInTime (C n) op
  current : ∀ n < len, ∀ op p q cb, what n = .cons op → Cons.Call.addSubscription p q cb ∈ callsIn op →
    ∀ r ≤ len, HoldsIbf pc (C (n + 1)) (P r) → ∀ x, (P r).base.getSeqNo p = some x → x ≤ q % 2 ^ 64

end PSync.Spec
