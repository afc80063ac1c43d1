import Verif.Model.Bloom
/-!
The `double` arithmetic of the Bloom filter code: IEEE 754 binary64, round to nearest, ties to even.
Only `std::log` and `std::pow` remain parameters.

A double is its bit pattern: the sign bit, then 63 bits of magnitude.  The finite magnitudes are multiples of 2^-1074, and
values are counted in that unit, so that all arithmetic below is exact arithmetic on natural numbers before it is rounded.
-/
namespace PSync
namespace Ieee

/-- The sign bit. -/
def sign (d : Double) : Bool := decide (2 ^ 63 ≤ d.toNat)
/-- The bits without the sign. -/
def mag (d : Double) : Nat := d.toNat % 2 ^ 63
/-- Sign and magnitude put together. -/
def mk (s : Bool) (m : Nat) : Double := BitVec.ofNat 64 ((if s then 2 ^ 63 else 0) + m)

/-- The magnitude of infinity: exponent field 2047, fraction 0.  Larger magnitudes are NaNs. -/
def INF : Nat := 2047 * 2 ^ 52
/-- A NaN. -/
def nan : Double := mk false (INF + 2 ^ 51)

/-- The value of a finite magnitude in units of 2^-1074: exponent field m / 2^52, fraction m % 2^52. -/
def val (m : Nat) : Nat := if m / 2 ^ 52 = 0 then m else (2 ^ 52 + m % 2 ^ 52) * 2 ^ (m / 2 ^ 52 - 1)

/-- 1.0 in units of 2^-1074. -/
@[irreducible] def UNIT : Nat := 2 ^ 1074

/-- The largest magnitude whose value is at most `q` units. -/
def floorMag (q : Nat) : Nat := if q < 2 ^ 52 then q else (Nat.log2 q - 52) * 2 ^ 52 + q / 2 ^ (Nat.log2 q - 52)

/-- The magnitude nearest to `a / b` units; of two that are equally near, the even one. -/
def round (a b : Nat) : Nat :=
  let f := floorMag (a / b)
  let mid := b * (val f + val (f + 1))
  min INF (if 2 * a < mid then f else if mid < 2 * a then f + 1 else if f % 2 = 0 then f else f + 1)

/-- A natural number converted to double (`unsigned int` or `uint64_t` operand of a double operation). -/
def ofNat (n : Nat) : Double := mk false (round (n * UNIT) 1)

/-- `-x`. -/
def neg (x : Double) : Double := mk (!sign x) (mag x)

/-- `x * y`. -/
def mul (x y : Double) : Double :=
  let s := xor (sign x) (sign y)
  if mag x > INF ∨ mag y > INF then nan
  else if mag x = INF ∨ mag y = INF then (if mag x = 0 ∨ mag y = 0 then nan else mk s INF)
  else mk s (round (val (mag x) * val (mag y)) UNIT)

/-- `x / y`. -/
def div (x y : Double) : Double :=
  let s := xor (sign x) (sign y)
  if mag x > INF ∨ mag y > INF then nan
  else if mag x = INF then (if mag y = INF then nan else mk s INF)
  else if mag y = INF then mk s 0
  else if mag y = 0 then (if mag x = 0 then nan else mk s INF)
  else mk s (round (val (mag x) * UNIT) (val (mag y)))

/-- `1.0 - y`. -/
def oneMinus (y : Double) : Double :=
  if mag y > INF then nan
  else if mag y = INF then mk (!sign y) INF
  else if sign y then mk false (round (UNIT + val (mag y)) 1)
  else if val (mag y) ≤ UNIT then mk false (round (UNIT - val (mag y)) 1)
  else mk true (round (val (mag y) - UNIT) 1)

/-- `x < y`. -/
def lt (x y : Double) : Bool :=
  if mag x > INF ∨ mag y > INF then false
  else match sign x, sign y with
    | false, false => decide (mag x < mag y)
    | true, true => decide (mag y < mag x)
    | true, false => decide (0 < mag x ∨ 0 < mag y)
    | false, true => false

/-- `static_cast` of a double to an unsigned type with values below `limit`: the fraction is dropped; `none`, undefined
behaviour, if the result does not fit. -/
def toUnsigned (limit : Nat) (x : Double) : Option Nat :=
  if mag x ≥ INF then none
  else if sign x then (if val (mag x) < UNIT then some 0 else none)
  else if val (mag x) / UNIT < limit then some (val (mag x) / UNIT) else none

end Ieee

/-- The operations of the Bloom filter code in IEEE arithmetic, for given `std::log` and `std::pow`:
PSync/detail/bloom-filter.cpp:94-95, 146-157, 170, 240, PSync/partial-producer.cpp:139. -/
def Libm.ieee (log : Double → Double) (pow : Double → Double → Double) : Libm where
  invalidProb p := Ieee.lt p 0#64 || decide (Ieee.mag p = Ieee.INF)
  currM count p k :=
    Ieee.div (Ieee.mul (Ieee.neg (Ieee.ofNat k)) (Ieee.ofNat count))
      (log (Ieee.oneMinus (pow p (Ieee.div (Ieee.ofNat 1) (Ieee.ofNat k)))))
  lt := Ieee.lt
  inf := Ieee.mk false Ieee.INF
  toU32 := Ieee.toUnsigned (2 ^ 32)
  toThousandths p := Ieee.toUnsigned (2 ^ 64) (Ieee.mul p (Ieee.ofNat 1000))
  ofThousandths n := Ieee.div (Ieee.ofNat n) (Ieee.ofNat 1000)

end PSync
