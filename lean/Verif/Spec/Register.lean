import Verif.Model.Register
/-!
Spec for C103: what a producer takes notice of while the forwarder has not answered.
-/
namespace PSync.Spec

/-- The event is the arrival of an Interest. -/
def IsArrival : RegOp Part.Op → Prop
  | .op (.recvInterest _) => True
  | _ => False

/-- `os` are the events of `ops` without the forwarder's answers and without the Interests that arrive before the first success;
`ready`: there has been a success. -/
inductive Heard : Bool → List (RegOp Part.Op) → List Part.Op → Prop
  | nil (r) : Heard r [] []
  | succeeded {r ops os} (h : Heard true ops os) : Heard r (.succeeded :: ops) os
  | failed {r ops os} (h : Heard r ops os) : Heard r (.failed :: ops) os
  | dropped {ops os} (i : Interest) (h : Heard false ops os) : Heard false (.op (.recvInterest i) :: ops) os
  | arrived {ops os} (i : Interest) (h : Heard true ops os) : Heard true (.op (.recvInterest i) :: ops) (.recvInterest i :: os)
  | other {r ops os} (o : Part.Op) (hn : ¬ IsArrival (.op o)) (h : Heard r ops os) : Heard r (.op o :: ops) (o :: os)

end PSync.Spec
