import Verif.Model.Consumer
/-!
Spec for C92: for what reasons a consumer sends Interests.
-/
namespace PSync.Spec
open Cons

/-- The Interest of each kind: hello Interests have the name /<sync-prefix>/hello, sync Interests a name below
/<sync-prefix>/sync. -/
def asksKind (cfg : CCfg) : CTimer → Out → Bool
  | .hello, .interest n _ => decide (n = cfg.syncPrefix ++ [HELLO])
  | .sync, .interest n _ => (cfg.syncPrefix ++ [SYNC]).isPrefixOf n
  | _, _ => false

/-- How many Interests of a kind were sent. -/
def sentKind (cfg : CCfg) (k : CTimer) (log : List Out) : Nat := log.countP (asksKind cfg k)

/-- How many retries of a kind are scheduled. -/
def scheduledKind (k : CTimer) (s : Cons) : Nat := s.timers.countP (fun e => decide (e.2 = k))

/-- The application call that asks for an Interest of a kind. -/
def callKind : CTimer → Call
  | .hello => .sendHello
  | .sync => .sendSync

/-- How many Interests of a kind an event is a reason for: a call of the application (from a callback or not); a fetch of that kind that
fails; for hello Interests, a segment of an application nack that reaches the sync fetch; for sync Interests, a sync reply that is
complete. -/
def reasons (s : Cons) (k : CTimer) : Op → Nat
  | .call c => [c].count (callKind k)
  | .helloComplete _ a1 a2 => if s.helloFetcher = some true then (a1 ++ a2).count (callKind k) else 0
  | .helloError => if k = .hello ∧ s.helloFetcher = some true then 1 else 0
  | .syncSegment d =>
    if k = .hello ∧ s.syncFetcher = some true ∧ (if d.finalBlock.isSome then d.contentType else s.contentType) = .nack then 1 else 0
  | .syncComplete _ acts =>
    if s.syncFetcher = some true ∧ s.contentType ≠ .nack then acts.count (callKind k) + (if k = .sync then 1 else 0) else 0
  | .syncError _ => if k = .sync ∧ s.syncFetcher = some true then 1 else 0
  | .helloSegment _ => 0
  | .tick _ => 0
  | .fire => 0

/-- All reasons in a run. -/
def allReasons (cfg : CCfg) (k : CTimer) : Cons → List Op → Nat
  | _, [] => 0
  | s, op :: ops => reasons s k op + match Cons.step cfg s op with
    | .ok s' => allReasons cfg k s' ops
    | _ => 0

/-- In this event the application does not call `stop`, and it makes no calls from its update callbacks. -/
def Plain : Op → Prop
  | .call c => c ≠ .stop
  | .helloComplete _ a1 a2 => .stop ∉ a1 ∧ a2 = []
  | .syncComplete _ acts => acts = []
  | _ => True

end PSync.Spec
