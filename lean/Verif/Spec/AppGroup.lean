import Verif.Spec.Examples
import Verif.Spec.Group
/-!
A group of full-sync example programs over a network.  The network is that of Spec/Group.lean: it may lose, delay,
duplicate, reorder and cache packets, but a fetch completes only with packets that programs of the group have sent.
-/
namespace PSync.Spec

/-- The producers inside the programs. -/
def producers {ι : Type} (a : ι → FullApp) (i : ι) : Full := (a i).prod

/-- An event at program `i`. -/
structure AStep {ι : Type} (cfg : ι → PubAppCfg) (i : ι) (op : FullApp.Op) (a a' : ι → FullApp) : Prop where
  honest : ∀ buf acts, op = .prod (.complete buf acts) →
    ∃ n lt segs, Out.interest n lt ∈ (a i).prod.log ∧ Fetched (SentBy (producers a)) n segs buf
  step : FullApp.step (cfg i) (a i) op = .ok (a' i)
  others : ∀ j, j ≠ i → a' j = a j

/-- A run of the group: the state after each number of events, and the program and the kind of each event. -/
structure ARun {ι : Type} (cfg : ι → PubAppCfg) (a : Nat → ι → FullApp) (who : Nat → ι) (what : Nat → FullApp.Op)
    (len : Nat) : Prop where
  init : ∀ i, FullApp.init (cfg i) = .ok (a 0 i)
  step : ∀ n < len, AStep cfg (who n) (what n) (a n) (a (n + 1))

/-- The options of the producers. -/
def options {ι : Type} (cfg : ι → PubAppCfg) (i : ι) : Cfg := (cfg i).pc

/-- Each stream belongs to one program. -/
structure OwnStreams {ι : Type} (cfg : ι → PubAppCfg) : Prop where
  once : ∀ i, (cfg i).streams.Nodup
  own : ∀ i j p, p ∈ (cfg i).streams → p ∈ (cfg j).streams → i = j

/-- What an event of a program is for its producer: a packet or timer, a publication, or nothing (the clock is not
advanced). -/
def asProducer (a : FullApp) : FullApp.Op → Full.Op
  | .prod op => if FullApp.outside op then op else .tick 0
  | .update =>
    match takeDueName a.prod.now a.timers with
    | none => .tick 0
    | some (p, _) => .call (.publishName p none)

/-- The events of a run, as events of the producers. -/
def producerEvent {ι : Type} (a : Nat → ι → FullApp) (who : Nat → ι) (what : Nat → FullApp.Op) (n : Nat) : Full.Op :=
  asProducer (a n (who n)) (what n)

end PSync.Spec
