import Verif.Spec.PubSub
import Verif.Spec.Safe
/-!
A partial-sync producer and any number of consumers over a network, and what may happen when none of them
misbehaves.
-/
namespace PSync.Spec

/-- An event at the producer or at one of the consumers. -/
inductive MEv (ι : Type) where
  | prod (op : Part.Op)
  | cons (i : ι) (op : Cons.Op)
  deriving DecidableEq

variable {ι : Type} [DecidableEq ι]

/-- What consumer `i` and the producer see of an event: an event at another consumer is as if nothing had happened. -/
def seenBy (i : ι) : MEv ι → PSEv
  | .prod op => .prod op
  | .cons j op => if j = i then .cons op else .prod (.tick 0)

/-- Fetches of consumer `i` complete with packets the producer has sent before event `n`. -/
structure FetchesSent (cc : ι → CCfg) (P : Nat → Part) (C : Nat → ι → Cons) (what : Nat → MEv ι) (n : Nat) (i : ι)
    (op : Cons.Op) : Prop where
  sync : ∀ buf acts, op = .syncComplete buf acts →
    FetchDone (fun d => Out.data d ∈ (P n).log) (fun k => C k i) (fun k => seenBy i (what k)) ((cc i).syncPrefix ++ [SYNC])
      .syncSegment n buf
  hello : ∀ buf acts acts', op = .helloComplete buf acts acts' →
    FetchDone (fun d => Out.data d ∈ (P n).log) (fun k => C k i) (fun k => seenBy i (what k)) ((cc i).syncPrefix ++ [HELLO])
      .helloSegment n buf

/-- One event of a run. -/
inductive MStep (pc : Cfg) (cc : ι → CCfg) (P : Nat → Part) (C : Nat → ι → Cons) (what : Nat → MEv ι) (n : Nat) : Prop
  | prod (op : Part.Op) : what n = .prod op → Part.step pc (P n) op = .ok (P (n + 1)) → C (n + 1) = C n →
      MStep pc cc P C what n
  | cons (i : ι) (op : Cons.Op) : what n = .cons i op → Cons.step (cc i) (C n i) op = .ok (C (n + 1) i) →
      (∀ j, j ≠ i → C (n + 1) j = C n j) → P (n + 1) = P n → FetchesSent cc P C what n i op → MStep pc cc P C what n

/-- A run of a producer and its consumers. -/
structure MRun (pc : Cfg) (cc : ι → CCfg) (P : Nat → Part) (C : Nat → ι → Cons) (what : Nat → MEv ι) (len : Nat) : Prop where
  initP : P 0 = Part.init pc
  initC : ∀ i, Cons.init (cc i) = .ok (C 0 i)
  step : ∀ n < len, MStep pc cc P C what n

/-- An Interest of one of the consumers: one that a consumer has sent, or one for another segment of a reply that the
producer has sent. -/
def OfConsumers (s : Part) (c : ι → Cons) (int : Interest) : Prop :=
  (∃ i lt, Out.interest int.name lt ∈ (c i).log) ∨
  ∃ d base seg k, Out.data d ∈ s.log ∧ d.contentType = .blob ∧ d.name = base ++ [seg] ∧ int.name = base ++ [k]

/-- An event that may follow the first `n` events of a run in which nobody misbehaves: Interests come from consumers,
fetches complete with packets of the producer, published numbers are in `K`, and no consumer calls sendSyncInterest before its
hello callback has been called once. -/
structure HonestPS (cc : ι → CCfg) (K : Name → Nat → Prop) (P : Nat → Part) (C : Nat → ι → Cons) (what : Nat → MEv ι) (n : Nat)
    (e : MEv ι) : Prop where
  interests : ∀ int, e = .prod (.recvInterest int) → OfConsumers (P n) (C n) int
  numbers : ∀ p seq, e = .prod (.publishName p seq) →
    ∀ x ∈ publications (P n).base.getSeqNo [.publishName p seq], K x.1 x.2
  started : ∀ i, e = .cons i (.call .sendSync) → ∃ l, Out.hello l ∈ (C n i).log
  fetches : ∀ i op, e = .cons i op → FetchesSent cc P C what n i op

/-- The event is dealt with: no exception, no undefined behaviour, no failed assertion, no endless loop. -/
def DealtWith (pc : Cfg) (cc : ι → CCfg) (s : Part) (c : ι → Cons) : MEv ι → Prop
  | .prod op => ∃ s', Part.step pc s op = .ok s'
  | .cons i op => ∃ s', Cons.step (cc i) (c i) op = .ok s'

end PSync.Spec
