import Verif.Model.Ieee
/-!
What is assumed of `std::log` and `std::pow`, and what a decimal literal means.
-/
namespace PSync.Spec
open Ieee

/-- The distance of two numbers. -/
def apart (a b : Nat) : Nat := (a - b) + (b - a)

/-- `d` is the value of the literal `k/1000` (such as `0.001` for k = 1): a finite double, not negative, and no other double is
nearer to k/1000.  (Values are in units of 2^-1074; both sides are multiplied by 1000.) -/
def IsThousandths (k : Nat) (d : Double) : Prop :=
  sign d = false ∧ mag d < INF ∧ ∀ m, m < INF → apart (1000 * val (mag d)) (k * UNIT) ≤ apart (1000 * val m) (k * UNIT)

/-- Results of `std::log` and `std::pow` that the C standard fixes for IEEE arithmetic (Annex F.10.3.7 and F.10.4.4). -/
structure AnnexF (log : Double → Double) (pow : Double → Double → Double) : Prop where
  /-- `pow(+1, y)` is 1. -/
  pow_one : ∀ y, pow (ofNat 1) y = ofNat 1
  /-- `pow(+0, y)` is +0 for y > 0. -/
  pow_zero : ∀ y, sign y = false → 0 < mag y → mag y < INF → pow (ofNat 0) y = ofNat 0
  /-- `log(1)` is +0. -/
  log_one : log (ofNat 1) = ofNat 0
  /-- `log(+0)` is minus infinity. -/
  log_zero : log (ofNat 0) = mk true INF
  /-- `log(x)` is a NaN for x < 0. -/
  log_neg : ∀ x, sign x = true → 0 < mag x → mag x ≤ INF → INF < mag (log x)

/-- `std::pow` of a number that is at least 1, with a positive exponent, is at least 1. -/
def PowAtLeastOne (pow : Double → Double → Double) : Prop :=
  ∀ x y, sign x = false → mag (ofNat 1) ≤ mag x → mag x < INF → sign y = false → 0 < mag y → mag y < INF →
    sign (pow x y) = false ∧ mag (ofNat 1) ≤ mag (pow x y) ∧ mag (pow x y) ≤ INF

end PSync.Spec
