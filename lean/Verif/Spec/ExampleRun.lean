import Verif.Spec.PubSub
import Verif.Spec.Examples
/-!
The example consumer (examples/consumer.cpp) and a producer over a network.
-/
namespace PSync.Spec

/-- One event of a run.  Events of the consumer are those of the application: it sends the hello Interest in its
constructor, before anything else happens at the consumer.  Fetches complete with packets the producer has sent. -/
inductive ExStep (pc : Cfg) (cfg : ConsAppCfg) (P : Nat → Part) (A : Nat → ConsApp) (what : Nat → PSEv) (n : Nat) : Prop
  | prod (op : Part.Op) : what n = .prod op → Part.step pc (P n) op = .ok (P (n + 1)) → A (n + 1) = A n →
      ExStep pc cfg P A what n
  | app (op : ConsApp.Op) (o : Cons.Op) : (op = .start ↔ ∀ k < n, ∃ o', what k = .prod o') →
      ConsApp.consOp cfg (A n) op = .ok o → what n = .cons o → ConsApp.step cfg (A n) op = .ok (A (n + 1)) → P (n + 1) = P n →
      (∀ buf acts, o = .syncComplete buf acts →
        FetchDone (fun d => Out.data d ∈ (P n).log) (fun k => (A k).cons) what (cfg.consumer.syncPrefix ++ [SYNC]) .syncSegment n buf) →
      (∀ buf acts acts', o = .helloComplete buf acts acts' →
        FetchDone (fun d => Out.data d ∈ (P n).log) (fun k => (A k).cons) what (cfg.consumer.syncPrefix ++ [HELLO]) .helloSegment n buf) →
      ExStep pc cfg P A what n

/-- A run of a producer and the example consumer. -/
structure ExRun (pc : Cfg) (cfg : ConsAppCfg) (P : Nat → Part) (A : Nat → ConsApp) (what : Nat → PSEv) (len : Nat) : Prop where
  initP : P 0 = Part.init pc
  initA : ConsApp.init cfg = .ok (A 0)
  step : ∀ n < len, ExStep pc cfg P A what n

/-- An application nack is one packet: the SegmentFetcher completes in the event handler in which the packet with
the final block is validated, so no other event comes between. -/
def NackAtOnce (A : Nat → ConsApp) (what : Nat → PSEv) (len : Nat) : Prop :=
  ∀ n, n + 1 < len → ∀ d, what n = .cons (.syncSegment d) → (A n).cons.syncFetcher = some true → d.contentType = .nack →
    d.finalBlock.isSome → ∃ buf acts, what (n + 1) = .cons (.syncComplete buf acts)

end PSync.Spec
