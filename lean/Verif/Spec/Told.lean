import Verif.Spec.PubSub
/-!
Where a number may come from that a subscriber is told.
-/
namespace PSync.Spec

/-- The number was the producer's after some number of events up to `n`. -/
def Was (P : Nat → Part) (n : Nat) (p : Name) (q : Nat) : Prop := ∃ r ≤ n, (P r).base.getSeqNo p = some q

/-- The application gave the number when it subscribed. -/
def Given (what : Nat → PSEv) (n : Nat) (p : Name) (q : Nat) : Prop :=
  ∃ k < n, ∃ op x cb, what k = .cons op ∧ Cons.Call.addSubscription p x cb ∈ callsIn op ∧ q = x % 2 ^ 64

/-- A call publishName raised the producer's number to `q`. -/
def PublishedAs (P : Nat → Part) (what : Nat → PSEv) (n : Nat) (p : Name) (q : Nat) : Prop :=
  ∃ k < n, ∃ seq, what k = .prod (.publishName p seq) ∧ (P k).base.getSeqNo p ≠ some q ∧ (P (k + 1)).base.getSeqNo p = some q

end PSync.Spec
