import Verif.Spec.Group
/-!
Rounds of a group of full-sync nodes in which every node asks every other one.
-/
namespace PSync.Spec

/-- In the events `m`, …, `n - 1`, node `i` sends a sync Interest, node `j` receives it, and if `j` answers, a fetch
of `i` that starts with the packet sent completes.  When `m` events had happened, the state of `j` satisfied `ok`
for this Interest. -/
def Serves {ι : Type} (ok : Full → Name → Prop) (g : Nat → ι → Full) (who : Nat → ι) (what : Nat → Full.Op) (j i : ι) (m n : Nat) : Prop :=
  ∃ (k a : Nat) (int : Interest) (lt : Nat), m ≤ k ∧ k < a ∧ a < n ∧
    Out.interest int.name lt ∈ newOutput (g k i) (g (k + 1) i) ∧ who a = j ∧ what a = .recvInterest int ∧
    ok (g m j) int.name ∧
    ∀ d, Out.data d ∈ newOutput (g a j) (g (a + 1) j) → ∃ b, a < b ∧ b < n ∧ Completes g who what i d b

/-- A round: every node is served by every other one. -/
structure Round {ι : Type} (ok : Full → Name → Prop) (g : Nat → ι → Full) (who : Nat → ι) (what : Nat → Full.Op)
    (m n : Nat) : Prop where
  order : m ≤ n
  served : ∀ j i, j ≠ i → Serves ok g who what j i m n

/-- In the events `m`, …, `n - 1`, node `i` sends a sync Interest and every other node `j` receives it (in event `a j`).
If some of them answer with Data, a fetch of `i` that starts with one of these packets completes.  (So `i` need not get
more than one of the answers.) -/
def Polls {ι : Type} (g : Nat → ι → Full) (who : Nat → ι) (what : Nat → Full.Op) (i : ι) (m n : Nat) : Prop :=
  ∃ (k : Nat) (nm : Name) (lt : Nat) (a : ι → Nat) (int : ι → Interest), m ≤ k ∧ k < n ∧
    Out.interest nm lt ∈ newOutput (g k i) (g (k + 1) i) ∧
    (∀ j, j ≠ i → k < a j ∧ a j < n ∧ who (a j) = j ∧ what (a j) = .recvInterest (int j) ∧ (int j).name = nm) ∧
    ((∃ j d, j ≠ i ∧ Out.data d ∈ newOutput (g (a j) j) (g (a j + 1) j)) →
      ∃ j d b, j ≠ i ∧ Out.data d ∈ newOutput (g (a j) j) (g (a j + 1) j) ∧ a j < b ∧ b < n ∧ Completes g who what i d b)

/-- From event `t` on, packets take at most `Δ` ms: every sync Interest is received by every other node within `Δ` ms, and if
some of them answer with Data, a fetch of the sender that starts with one of these packets completes within `Δ` ms of
the sending.  (Nothing is asked about Interests sent less than `Δ` ms before the end of the run.) -/
def Prompt {ι : Type} (Δ : Nat) (g : Nat → ι → Full) (who : Nat → ι) (what : Nat → Full.Op) (t len : Nat) : Prop :=
  ∀ (k : Nat) (i : ι) (nm : Name) (lt : Nat), t ≤ k → k < len → Out.interest nm lt ∈ newOutput (g k i) (g (k + 1) i) →
    (∀ j, (g k i).now + Δ < (g len j).now) →
    ∃ (a : ι → Nat) (int : ι → Interest),
      (∀ j, j ≠ i → k < a j ∧ a j < len ∧ who (a j) = j ∧ what (a j) = .recvInterest (int j) ∧ (int j).name = nm ∧
        (g (a j) j).now ≤ (g k i).now + Δ) ∧
      ((∃ j d, j ≠ i ∧ Out.data d ∈ newOutput (g (a j) j) (g (a j + 1) j)) →
        ∃ j d b, j ≠ i ∧ Out.data d ∈ newOutput (g (a j) j) (g (a j + 1) j) ∧ a j < b ∧ b < len ∧
          Completes g who what i d b ∧ (g b i).now ≤ (g k i).now + Δ)

end PSync.Spec
