import Verif.Spec.Partial
/-!
What it means that a handler fails, and what a sync Interest for a partial-sync producer asks.
-/
namespace PSync.Spec

/-- Undefined behaviour, or the peeling loop does not end (in the model, within the allowed number of rounds). -/
def Fails {α : Type} (r : Res α) : Prop := (∃ u, r = .ub u) ∨ r = .hang

/-- The name `n` asks with the element count `count` and `th` thousandths, a filter in `c3` and an IBF in `c4`. -/
def SyncAsk (cfg : Cfg) (n : Name) (count th : Nat) (c3 c4 : Component) : Prop :=
  ∃ c1 c2, AsksFor n (cfg.syncPrefix ++ [SYNC, c1, c2, c3, c4]) ∧ readNni c1.value = some count ∧ readNni c2.value = some th

/-- The answer of a partial-sync producer to a filter and an IBF fails: the comparison of the IBFs does, or it decodes, and
asking the filter for one of the names of the difference does. -/
def AnswerFails (cfg : Cfg) (s : Part) (bf : Bloom) (t : Table) : Prop :=
  Fails (Table.diff cfg.fuel s.base.iblt t) ∨ ∃ d, Table.diff cfg.fuel s.base.iblt t = .ok d ∧ d.canDecode = true ∧
    ∃ h ∈ d.positive, ∃ n, s.base.biMap.findLeft h = some n ∧ Fails (bf.contains (Name.dropLast n 1))

end PSync.Spec
