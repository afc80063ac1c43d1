import Verif.Spec.ExampleRun
/-!
The example producer (examples/producer.cpp) in a run with the example consumer.
-/
namespace PSync.Spec

/-- The events at the producer are those of the example producer.  The first `m` events are the calls of addUserNode in its
constructor; after that come Interests and timers of its producer, and its updates. -/
structure Produces (pcfg : PubAppCfg) (P : Nat → Part) (B : Nat → PartApp) (what : Nat → PSEv) (m len : Nat) : Prop where
  names : pcfg.streams.map (fun p => PSEv.prod (.addUserNode p)) = (List.range m).map what
  start : PartApp.init pcfg = .ok (B m)
  same : ∀ n, m ≤ n → n ≤ len → (B n).prod = P n
  cons : ∀ n, m ≤ n → n < len → ∀ o, what n = .cons o → B (n + 1) = B n
  prod : ∀ n, m ≤ n → n < len → ∀ op, what n = .prod op →
    (PartApp.outside op = true ∧ PartApp.step pcfg (B n) (.prod op) = .ok (B (n + 1))) ∨
    (∃ p ts, takeDueName (P n).now (B n).timers = some (p, ts) ∧ op = .publishName p none ∧ PartApp.step pcfg (B n) .update = .ok (B (n + 1)))

/-- No scheduled update runs more than `late` ms after its time. -/
def InTime (late : Nat) (B : Nat → PartApp) (m len : Nat) : Prop :=
  ∀ n, m ≤ n → n ≤ len → ∀ e ∈ (B n).timers, (B n).prod.now ≤ e.1 + late

end PSync.Spec
