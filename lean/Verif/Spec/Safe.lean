import Verif.Spec.Group
/-!
Honest traffic in a group of full-sync nodes: what may be delivered to a node, and which numbers an event
publishes.
-/
namespace PSync.Spec

/-- The numbers that a sequence of application calls publishes, starting from the numbers `t`: publishName on a
registered prefix publishes its 64-bit argument or the next number, and a number can only go up. -/
def publications : (Name → Option Nat) → List Full.Call → List (Name × Nat)
  | _, [] => []
  | t, .addUserNode p :: cs => publications (fun x => if p = x then some ((t p).getD 0) else t x) cs
  | t, .removeUserNode p :: cs => publications (fun x => if p = x then none else t x) cs
  | t, .publishName p seq :: cs =>
    match t p with
    | none => publications t cs
    | some cur =>
      let q := match seq with | some x => x % 2 ^ 64 | none => (cur + 1) % 2 ^ 64
      (p, q) :: publications (fun x => if p = x then some (max cur q) else t x) cs

/-- The numbers an event publishes: those of a call, or those of the calls made by the update callback, which
runs after the received numbers have been taken over. -/
def numbersOf (cfg : Cfg) (s : Full) : Full.Op → List (Name × Nat)
  | .call c => publications s.base.getSeqNo [c]
  | .complete buf acts =>
    publications (fun p => best p (s.base.getSeqNo p) ((namesIn cfg buf).filterMap announced)) acts
  | _ => []

/-- An Interest of a node of the group: a sync Interest that a node has sent, or one for a segment of a
reply to it (sync Interest name, version, segment number). -/
def OfGroup {ι : Type} (g : ι → Full) (int : Interest) : Prop :=
  ∃ j n lt, Out.interest n lt ∈ (g j).log ∧ (int.name = n ∨ ∃ v k, int.name = n ++ [v, k])

/-- An event that may happen at node `i` of a group in which nobody misbehaves: Interests come from nodes of
the group, fetches complete with packets that nodes of the group have sent, and the application publishes numbers
in `P` only. -/
structure Honest {ι : Type} (cfg : ι → Cfg) (P : Name → Nat → Prop) (g : ι → Full) (i : ι) (op : Full.Op) : Prop where
  interests : ∀ int, op = .recvInterest int → OfGroup g int
  data : ∀ buf acts, op = .complete buf acts →
    ∃ n lt segs, Out.interest n lt ∈ (g i).log ∧ Fetched (SentBy g) n segs buf
  numbers : ∀ e ∈ numbersOf (cfg i) (g i) op, P e.1 e.2

end PSync.Spec
