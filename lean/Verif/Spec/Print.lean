import Verif.Model.Print
import Verif.Spec.CommandLine
/-!
Spec for C102: what printed text shows.
-/
namespace PSync.Spec

/-- The text is the integer, in decimal. -/
def IsInteger (t : Bytes) (z : Int) : Prop :=
  (0 ≤ z ∧ IsNumber t z.toNat) ∨ (z < 0 ∧ ∃ r, t = 45#8 :: r ∧ IsNumber r z.natAbs)

/-- A line with an integer, a number and a truth value, separated by blanks. -/
def IsRow (row : Int × Nat × Bool) (l : Bytes) : Prop :=
  ∃ a b, IsInteger a row.1 ∧ IsNumber b row.2.1 ∧
    l = a ++ 32#8 :: (b ++ 32#8 :: ((if row.2.2 then [116#8, 114#8, 117#8, 101#8] else [102#8, 97#8, 108#8, 115#8, 101#8]) ++ [10#8]))

/-- A text with a line for each of the rows, after a first line. -/
def ShowsRows (text : Bytes) (rows : List (Int × Nat × Bool)) : Prop :=
  ∃ head ls, 10#8 ∉ head ∧ List.Forall₂ IsRow rows ls ∧ text = head ++ 10#8 :: ls.flatten

/-- The character is the hexadecimal digit: `0` to `9`, then `a` to `f`. -/
def IsHexDigit (c : Byte) (d : Nat) : Prop := (d < 10 ∧ c.toNat = 48 + d) ∨ (10 ≤ d ∧ d < 16 ∧ c.toNat = 97 + (d - 10))

/-- A text with two hexadecimal digits for each of the bytes. -/
def ShowsHex (text : Bytes) (bytes : Bytes) : Prop :=
  ∃ ls, text = ls.flatten ∧
    List.Forall₂ (fun (b : Byte) l => ∃ x y h m, l = [x, y] ∧ IsHexDigit x h ∧ IsHexDigit y m ∧ b.toNat = 16 * h + m) bytes ls

end PSync.Spec
