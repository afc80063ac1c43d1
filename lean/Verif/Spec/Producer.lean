import Verif.Model.Partial
import Verif.Spec.Iblt
/-!
What a producer is supposed to know and to publish, stated over `getSeqNo` only.
-/
namespace PSync.Spec

/-- `n` is the latest publication of some prefix: `prefix/seq` with the current, non-zero number. -/
def IsLive (get : Name → Option Nat) (n : Name) : Prop :=
  ∃ p s, get p = some s ∧ s ≠ 0 ∧ n = Name.appendNumber p s

/-- The IBF is the one obtained by inserting the hash of every latest publication once into a new IBF. -/
def IbfExact (expected : Nat) (get : Name → Option Nat) (t : Table) : Prop :=
  ∃ L : List Name, L.Nodup ∧ (∀ n, n ∈ L ↔ IsLive get n) ∧
    build expected (L.map (fun n => KeyOp.ins (murmurName 11#32 n))) = .ok t

/-- Different latest publications have different 32-bit hashes. -/
def DistinctHashes (get : Name → Option Nat) : Prop :=
  ∀ n n', IsLive get n → IsLive get n' → murmurName 11#32 n = murmurName 11#32 n' → n = n'

/-- At every moment of the recorded history, the latest publications had different hashes. -/
def CollisionFree (hist : List BaseEv) : Prop :=
  ∀ p old new m, BaseEv.update p old new m ∈ hist → DistinctHashes m.find

/-- What publishName is meant to make of the number `old`: an explicit number only raises it, otherwise
it goes up by one (and stays at the largest uint64). -/
def publishedSeq (seq : Option Nat) (old : Nat) : Nat :=
  match seq with
  | some x => max old x
  | none => if old + 1 < 2 ^ 64 then old + 1 else old

/-- Sum of the values of a map. -/
def sumSeq (m : NMap Nat) : Nat := (m.map Prod.snd).sum

/-- Sum of the sequence numbers held by prefixes when they were removed. -/
def sumRemoved : List BaseEv → Nat
  | [] => 0
  | .remove _ s :: h => s + sumRemoved h
  | .update .. :: h => sumRemoved h

/-- The prefix table a recorded history leads to (prefixes that were never published are left out). -/
def replay (hist : List BaseEv) : NMap Nat :=
  hist.foldl (fun m e =>
    match e with
    | .update p _ new _ => m.set p new
    | .remove p _ => m.erase p) []

end PSync.Spec

namespace PSync

/-- Prefixes an API call removes. -/
def Full.Call.Removes (p : Name) : Full.Call → Prop
  | .removeUserNode q => q = p
  | _ => False

/-- Prefixes an event removes: removeUserNode, directly or from inside the update callback. -/
def Full.Op.Removes (p : Name) : Full.Op → Prop
  | .call c => c.Removes p
  | .complete _ acts => ∃ c ∈ acts, c.Removes p
  | _ => False

/-- Prefixes an event of a partial producer removes. -/
def Part.Op.Removes (p : Name) : Part.Op → Prop
  | .removeUserNode q => q = p
  | _ => False

/-- Prefixes an API call publishes. -/
def Full.Call.Publishes (p : Name) : Full.Call → Prop
  | .publishName q _ => q = p
  | _ => False

/-- Prefixes an event publishes locally. -/
def Full.Op.Publishes (p : Name) : Full.Op → Prop
  | .call c => c.Publishes p
  | .complete _ acts => ∃ c ∈ acts, c.Publishes p
  | _ => False

/-- An API call that publishes `q` for `p`: the number is given as a 64-bit argument, or left to the producer. -/
def Full.Call.PublishesAs (p : Name) (q : Nat) : Full.Call → Prop
  | .publishName p' seq => p' = p ∧ ∀ x, seq = some x → q = x % 2 ^ 64
  | _ => False

/-- An event that publishes `q` for `p` locally. -/
def Full.Op.PublishesAs (p : Name) (q : Nat) : Full.Op → Prop
  | .call c => c.PublishesAs p q
  | .complete _ acts => ∃ c ∈ acts, c.PublishesAs p q
  | _ => False

end PSync
