import Verif.Spec.Flow
/-!
Spec for C99: how many sync Interests a node sends.
-/
namespace PSync.Spec

/-- How many Interests were sent. -/
def askCount (log : List Out) : Nat := log.countP (fun o => match o with | .interest _ _ => true | _ => false)

/-- The event is not the end of a fetch, unless the fetch times out. -/
def Unheard : Full.Op → Prop
  | .complete _ _ => False
  | .error timeout => timeout = true
  | _ => True

/-- The renewal timer is due and fires in this event. -/
def fires (s : Full) : Full.Op → Bool
  | .fireSync => match s.sched with
    | some (d, _) => decide (d ≤ s.now)
    | none => false
  | _ => false

end PSync.Spec
