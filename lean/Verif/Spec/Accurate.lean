import Verif.Spec.ConsumerOptions
import Mathlib.Analysis.SpecialFunctions.Pow.Real
/-!
The size of a Bloom filter in terms of real numbers, and what "accurate" means for `std::log` and `std::pow`.
-/
namespace PSync.Spec
open Ieee

/-- The real number that a finite double stands for (`UNIT` is 1.0 in units of the smallest double). -/
noncomputable def real (d : Double) : ℝ := (if sign d then -1 else 1) * ((val (mag d) : ℝ) / (UNIT : ℝ))

/-- `std::log` and `std::pow` err by at most 2^-40 of the result (the usual implementations err by about 2^-53): `log` between 0 and 1, `pow` for
a base from 2^-30 to 1 and an exponent up to 1. -/
structure Accurate (log : Double → Double) (pow : Double → Double → Double) : Prop where
  log : ∀ x, sign x = false → 0 < mag x → mag x < mag (ofNat 1) →
    mag (log x) < INF ∧ |real (log x) - Real.log (real x)| ≤ 1 / 2 ^ 40 * |Real.log (real x)|
  pow : ∀ x y, sign x = false → 1 / 2 ^ 30 ≤ real x → mag x < mag (ofNat 1) → sign y = false → 0 < mag y → mag y ≤ mag (ofNat 1) →
    mag (pow x y) < INF ∧ |real (pow x y) - real x ^ real y| ≤ 1 / 2 ^ 40 * real x ^ real y

/-- How many bits a filter for `count` names needs to have the false positive probability `p` with `k` hash functions:
-k·count / ln(1 - p^(1/k)). -/
noncomputable def idealSize (count : Nat) (p : ℝ) (k : Nat) : ℝ := k * count / -Real.log (1 - p ^ (1 / (k : ℝ)))

end PSync.Spec
