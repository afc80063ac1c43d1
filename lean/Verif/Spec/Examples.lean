import Verif.Model.Examples
import Verif.Spec.Consumer
import Verif.Spec.Bloom
/-!
What the example applications are supposed to do.
-/
namespace PSync.Spec

/-- std::shuffle leaves a permutation of what it was given. -/
def Shuffles (cfg : ConsAppCfg) : Prop := ∀ k l, (cfg.shuffle k l).Perm l

/-- The content is a list of names that end in numbers. -/
def Readable (buf : Bytes) : Prop :=
  ∃ st, StateMsg.wireDecode buf = .ok st ∧ ∀ n ∈ st.content, ∃ x, announced n = some x

/-- The prefixes a hello content lists, each once. -/
def listed (buf : Bytes) : List Name := ((announcements buf).map Prod.fst).dedup

/-- The number a hello content lists for a prefix: the first one, if there are several. -/
def firstNumber (buf : Bytes) (p : Name) : Option Nat :=
  ((announcements buf).find? (fun x => decide (x.1 = p))).map Prod.snd

/-- The filter made with these options can be made, filled and sent. -/
structure UsableFilter (cc : CCfg) : Prop where
  sized : ∃ bf, freshFilter cc = .ok bf ∧ SizedBf bf
  sendable : (cc.libm.toThousandths cc.bfFpp).isSome

/-- States the consumer application can be in: its constructor has sent the hello Interest. -/
def ExampleReach (cfg : ConsAppCfg) (a : ConsApp) : Prop :=
  ∃ a0 ops, ConsApp.init cfg = .ok a0 ∧ ConsApp.run cfg a0 (.start :: ops) = .ok a ∧ ConsApp.Op.start ∉ ops

/-- The numbers from `lo` to `hi`. -/
def upTo (lo hi : Nat) : List Nat := List.range' lo (hi + 1 - lo)

/-- The numbers printed for a prefix, in order. -/
def printedFor (p : Name) (out : List (Name × Nat)) : List Nat := (out.filter (fun x => decide (x.1 = p))).map Prod.snd

/-- How many updates of a stream are scheduled. -/
def scheduled (p : Name) (ts : List (Nat × Name)) : Nat := (ts.map Prod.snd).count p

/-- States the example of a partial-sync producer can be in. -/
def PartAppReach (cfg : PubAppCfg) (a : PartApp) : Prop :=
  ∃ a0 ops, PartApp.init cfg = .ok a0 ∧ PartApp.run cfg a0 ops = .ok a

/-- States the example of full sync can be in. -/
def FullAppReach (cfg : PubAppCfg) (a : FullApp) : Prop :=
  ∃ a0 ops, FullApp.init cfg = .ok a0 ∧ FullApp.run cfg a0 ops = .ok a

end PSync.Spec
