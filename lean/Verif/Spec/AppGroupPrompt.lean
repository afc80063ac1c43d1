import Verif.Spec.AppGroup
import Verif.Spec.Fair
import Mathlib.Algebra.BigOperators.Group.Finset.Basic
/-!
Time in a group of full-sync example programs.
-/
namespace PSync.Spec

/-- No scheduled update of a program runs more than `late` ms after its time. -/
def UpdatesInTime {ι : Type} (late : Nat) (a : Nat → ι → FullApp) (len : Nat) : Prop :=
  ∀ n ≤ len, ∀ i, ∀ e ∈ (a n i).timers, (a n i).prod.now ≤ e.1 + late

/-- How many updates the programs will publish in all. -/
def totalUpdates {ι : Type} [Fintype ι] (cfg : ι → PubAppCfg) : Nat := ∑ j, (cfg j).num.toNat * (cfg j).maxPublish.toNat

end PSync.Spec
