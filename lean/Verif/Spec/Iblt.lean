import Verif.Model.Iblt
/-!
What the IBF is supposed to do, stated without the table representation.
-/
namespace PSync.Spec

/-- One call on the IBF API. -/
inductive KeyOp where
  | ins (k : U32)
  | del (k : U32)
  deriving DecidableEq, Repr

/-- Number of insertions minus number of erasures of `k`. -/
def net : List KeyOp → U32 → Int
  | [], _ => 0
  | .ins k' :: ops, k => (if k' = k then 1 else 0) + net ops k
  | .del k' :: ops, k => (if k' = k then -1 else 0) + net ops k

def applyOp (t : Table) : KeyOp → Res Table
  | .ins k => t.insert k
  | .del k => t.erase k

/-- Run a sequence of calls on a fresh IBF. -/
def build (expected : Nat) (ops : List KeyOp) : Res Table := foldRes applyOp (Table.new expected) ops

/-- `t` is an IBF whose history leaves exactly the keys of `A` in it. -/
def HoldsSet (expected : Nat) (t : Table) (A : List U32) : Prop :=
  A.Nodup ∧ ∃ ops, build expected ops = .ok t ∧ ∀ k, net ops k = if k ∈ A then 1 else 0

/-- Number of keys that are in exactly one of the two sets. -/
def diffCount (A B : List U32) : Nat :=
  (A.filter (fun k => k ∉ B)).length + (B.filter (fun k => k ∉ A)).length

/-- Cells per hash function for a given capacity. -/
def buckets (expected : Nat) : Nat := (expected + expected / 2 + 2) / 3

/-- The three cells that store `k`. -/
def cellsOf (expected : Nat) (k : U32) : List Nat :=
  [(murmur32 0#32 k).toNat % buckets expected,
   buckets expected + (murmur32 1#32 k).toNat % buckets expected,
   2 * buckets expected + (murmur32 2#32 k).toNat % buckets expected]

def xorAll : List U32 → U32
  | [] => 0#32
  | x :: xs => xorAll xs ^^^ x

/-- The 32-bit key check. -/
def check (k : U32) : U32 := murmur32 11#32 k

/-- `P` are keys only in `A`, `N` keys only in `B`, and all of them share the cell `j`. -/
def ShareCell (expected : Nat) (A B : List U32) (j : Nat) (P N : List U32) : Prop :=
  P.Nodup ∧ N.Nodup ∧ (∀ k ∈ P, k ∈ A ∧ k ∉ B ∧ j ∈ cellsOf expected k) ∧
  (∀ k ∈ N, k ∈ B ∧ k ∉ A ∧ j ∈ cellsOf expected k)

/-- The 32-bit checksum does not fail on this pair of sets: several keys in one cell never look like
one key, and some keys never look like none. -/
def NoChecksumCollision (expected : Nat) (A B : List U32) : Prop :=
  ∀ j P N, ShareCell expected A B j P N →
    (((P.length : Int) - N.length = 1 ∨ (P.length : Int) - N.length = -1) →
      xorAll ((P ++ N).map check) = check (xorAll (P ++ N)) → P.length + N.length = 1) ∧
    (P.length = N.length → xorAll (P ++ N) = 0#32 → xorAll ((P ++ N).map check) = 0#32 → P = [])

/-- A stopping set of the difference: keys in exactly one of the sets, and every cell that stores one
of them stores at least two of them. -/
def StoppingSet (expected : Nat) (A B S : List U32) : Prop :=
  S ≠ [] ∧ S.Nodup ∧ (∀ k ∈ S, (k ∈ A ∧ k ∉ B) ∨ (k ∈ B ∧ k ∉ A)) ∧
  ∀ k ∈ S, ∀ j ∈ cellsOf expected k, ∃ k' ∈ S, k' ≠ k ∧ j ∈ cellsOf expected k'

end PSync.Spec
