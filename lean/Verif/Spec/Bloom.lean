import Verif.Model.Bloom
/-!
What the Bloom filter is supposed to do.
-/
namespace PSync.Spec

/-- Calls that change a filter. -/
inductive BfOp where
  | ins (n : Name)
  | clear
  deriving DecidableEq, Repr

def BfOp.apply (bf : Bloom) : BfOp → Res Bloom
  | .ins n => bf.insert n
  | .clear => .ok bf.clear

def runBf (bf : Bloom) (ops : List BfOp) : Res Bloom := foldRes BfOp.apply bf ops

/-- The names inserted since the last `clear`; `acc` are those before. -/
def live (acc : List Name) : List BfOp → List Name
  | [] => acc
  | .ins n :: ops => live (n :: acc) ops
  | .clear :: ops => live [] ops

/-- The table has exactly the bits the filter computes indices for, at least one. -/
def SizedBf (bf : Bloom) : Prop := 0 < bf.tableSize ∧ 8 * bf.bits.length = bf.tableSize

/-- The positions of a name: one per salt. -/
def positions (bf : Bloom) (n : Name) : List Nat :=
  bf.salts.map (fun s => (murmurBytes n.wireValue s).toNat % bf.tableSize)

/-- Facts of IEEE 754 arithmetic for a transmitted probability of exactly 1:
`log(1 - pow(1, 1/k)) = log(0) = -inf`, so every `curr_m` is zero.  `Libm.ieee` has them (`ieee_at_one`). -/
structure IeeeAtOne (fl : Libm) : Prop where
  valid : fl.invalidProb (fl.ofThousandths 1000) = false
  zero : ∀ count k, 1 ≤ count → count < 2 ^ 32 → 1 ≤ k → k < 1000 → fl.currM count (fl.ofThousandths 1000) k = 0#64
  zero_lt_inf : fl.lt 0#64 fl.inf = true
  zero_lt_zero : fl.lt 0#64 0#64 = false
  cast : fl.toU32 0#64 = some 0

/-- Facts of IEEE 754 arithmetic for a transmitted probability of exactly 0:
`log(1 - pow(0, 1/k)) = log(1) = 0`, so every `curr_m` is `-k·count / 0 = -inf`, whose conversion to
`unsigned int` is undefined.  `Libm.ieee` has them (`ieee_at_zero`). -/
structure IeeeAtZero (fl : Libm) : Prop where
  valid : fl.invalidProb (fl.ofThousandths 0) = false
  minusInf : ∃ ninf, (∀ count k, 1 ≤ count → count < 2 ^ 32 → 1 ≤ k → k < 1000 → fl.currM count (fl.ofThousandths 0) k = ninf) ∧ fl.lt ninf fl.inf = true ∧
    fl.lt ninf ninf = false ∧ fl.toU32 ninf = none

end PSync.Spec
