import Verif.Spec.Sync
/-!
Comparing the knowledge of two nodes, stated over `getSeqNo`.
-/
namespace PSync.Spec

/-- Whoever knows `g'` has everything published according to `g`: the same prefix with a number at least
as high. -/
def Covers (g g' : Name → Option Nat) : Prop :=
  ∀ p x, g p = some x → x ≠ 0 → ∃ y, g' p = some y ∧ x ≤ y

/-- The names whose hashes are looked at when a node with `g` answers a node with `g'`: the latest
publications of both, and the next publication of every prefix in `g`. -/
def Compared (g g' : Name → Option Nat) (n : Name) : Prop :=
  IsLive g n ∨ IsLive g' n ∨ ∃ p x, g p = some x ∧ x ≠ 0 ∧ n = Name.appendNumber p ((x + 1) % 2 ^ 64)

/-- `A` lists the hashes of the latest publications, each once. -/
def IsHashList (g : Name → Option Nat) (A : List U32) : Prop :=
  A.Nodup ∧ ∀ k, k ∈ A ↔ ∃ n, IsLive g n ∧ murmurName 11#32 n = k

/-- No 32-bit hash is the same for two different names that are compared, no checksum collides, and fewer
than 2^31 - 1 publications differ. -/
structure NoCollisions (expected : Nat) (g g' : Name → Option Nat) : Prop where
  names : ∀ n n', Compared g g' n → Compared g g' n' → murmurName 11#32 n = murmurName 11#32 n' → n = n'
  checks : ∀ A B, IsHashList g A → IsHashList g' B → NoChecksumCollision expected A B
  few : ∀ A B, IsHashList g A → IsHashList g' B → diffCount A B < 2147483647

end PSync.Spec
