import Verif.Model.Res
/-!
Spec for C91: what the salts of a filter are to be.
-/
namespace PSync.Spec

/-- `l` are `k` salts that make `k` different hash functions: none is zero and no two are equal. -/
structure GoodSalts (k : Nat) (l : List (BitVec 32)) : Prop where
  count : l.length = k
  distinct : ∀ (i j : Nat) (a : BitVec 32), l[i]? = some a → l[j]? = some a → i = j
  nonzero : 0#32 ∉ l

/-- `l` is `p` mixed with the seed: every element is multiplied with the one three places further on (cyclically), which has been
mixed already if it stands before, and the seed is added. -/
def Mixed (seed : BitVec 32) (p l : List (BitVec 32)) : Prop :=
  l.length = p.length ∧
  ∀ i, i < p.length → ∃ a b, p[i]? = some a ∧
    (if (i + 3) % p.length < i then l[(i + 3) % p.length]? else p[(i + 3) % p.length]?) = some b ∧ l[i]? = some (a * b + seed)

end PSync.Spec
