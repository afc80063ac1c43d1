import Verif.Model.Bloom
/-!
The salts of a BloomFilter, PSync/detail/bloom-filter.cpp:293-378, with the loop that draws random numbers.  `genSalts` in
Model/Bloom.lean takes the numbers which that loop accepts as given.
-/
namespace PSync

/-- One round of the loop, bloom-filter.cpp:363-373: two calls of `rand()` (their order does not matter, as their product is taken);
zero and a salt that is already there are skipped. -/
def saltDraw (rand : Nat → U32) (acc : List U32) (m : Nat) : List U32 :=
  let c := rand (2 * m) * rand (2 * m + 1)
  if c = 0#32 then acc else if c ∈ acc then acc else acc ++ [c]

/-- bloom-filter.cpp:363-374: the loop ends when there are `n` salts.  `m` rounds have been made; `fuel` bounds the number of the
remaining ones, as nothing in the code does. -/
def saltLoop (rand : Nat → U32) (n : Nat) : Nat → Nat → List U32 → Res (List U32)
  | 0, _, _ => .hang
  | fuel + 1, m, acc => if acc.length < n then saltLoop rand n fuel (m + 1) (saltDraw rand acc m) else .ok acc

/-- bloom-filter.cpp:293-376 `generate_unique_salt`.  `rand k` is the `k`-th number that `rand()` returns after
`srand(random_seed_)` with the constant seed, converted to 32 bits. -/
def uniqueSalts (rand : Nat → U32) (fuel n : Nat) : Res (List U32) :=
  if n ≤ 128 then .ok (mixSalts (predefSalt.take n)) else saltLoop rand n fuel 0 predefSalt

end PSync
