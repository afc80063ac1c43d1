import Verif.Proofs.Ieee
import Verif.Spec.Ieee
/-!
Probabilities in thousandths: the conversion on the wire and back.
-/
set_option exponentiation.threshold 3000

namespace PSync
namespace Ieee
open Spec

/-- What is transmitted for the magnitude `m`. -/
def sentMag (m : Nat) : Nat := val (round (val m * (1000 * UNIT)) UNIT) / UNIT

/-- The magnitude that is made from the transmitted number `k`. -/
def gotMag (k : Nat) : Nat := round (k * UNIT * UNIT) (1000 * UNIT)

theorem sentMag_mono {m n : Nat} (h : m ≤ n) : sentMag m ≤ sentMag n := by
  unfold sentMag
  apply Nat.div_le_div_right
  apply val_le
  apply round_mono UNIT_pos UNIT_pos
  exact Nat.mul_le_mul_right _ (Nat.mul_le_mul_right _ (val_le h))

/-- The check of the round trip for 0 … k. -/
def roundTrips : Nat → Bool
  | 0 => sentMag (gotMag 0) == 0
  | k + 1 => sentMag (gotMag (k + 1)) == k + 1 && decide (sentMag (gotMag (k + 1) - 2) < k + 1) && roundTrips k

theorem roundTrips_le {k : Nat} (h : roundTrips k = true) : ∀ j ≤ k, sentMag (gotMag j) = j ∧ (0 < j → sentMag (gotMag j - 2) < j) := by
  induction k with
  | zero =>
    intro j hj
    have : j = 0 := by omega
    subst this
    simp only [roundTrips, beq_iff_eq] at h
    exact ⟨h, by omega⟩
  | succ k ih =>
    simp only [roundTrips, Bool.and_eq_true, beq_iff_eq, decide_eq_true_eq] at h
    intro j hj
    rcases Nat.lt_or_ge j (k + 1) with h' | h'
    · exact ih h.2 j (by omega)
    · rw [show j = k + 1 by omega]
      exact ⟨h.1.1, fun _ => h.1.2⟩

/-- All 1001 cases, by computation. -/
theorem roundTrips_all : roundTrips 1000 = true := by decide +kernel

end Ieee
end PSync
