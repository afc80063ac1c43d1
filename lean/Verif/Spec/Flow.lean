import Verif.Model.Full
import Verif.Model.Partial
import Verif.Spec.Sync
/-!
Spec for C89: how many Data a producer puts for how many Interests.
-/
namespace PSync.Spec

/-- The event is an Interest that the Interest filter of a FullProducer passes on, PSync/full-producer.cpp:43-45. -/
def fullAccepts (cfg : Cfg) : Full.Op → Bool
  | .recvInterest i => cfg.syncPrefix.isPrefixOf i.name
  | _ => false

/-- The name of the Interest that the filter passes on. -/
def acceptedName (cfg : Cfg) : Full.Op → Option Name
  | .recvInterest i => if cfg.syncPrefix.isPrefixOf i.name then some i.name else none
  | _ => none

/-- The event is an Interest that one of the two Interest filters of a PartialProducer passes on,
PSync/partial-producer.cpp:42-49. -/
def partAccepts (cfg : Cfg) : Part.Op → Bool
  | .recvInterest i => (cfg.syncPrefix ++ [HELLO]).isPrefixOf i.name || (cfg.syncPrefix ++ [SYNC]).isPrefixOf i.name
  | _ => false

/-- C89: at no time has a producer put more Data than it has received Interests. -/
def OneDataPerInterest : Prop :=
  ∀ cfg : Cfg, cfg.WF →
    (∀ ops s, Part.run cfg (Part.init cfg) ops = .ok s → (dataOf s.log).length ≤ ops.countP (partAccepts cfg)) ∧
    (∀ s0 ops s, Full.init cfg = .ok s0 → Full.run cfg s0 ops = .ok s →
      (dataOf s.log).length ≤ ops.countP (fullAccepts cfg))

/-- No Interest is parked and waits to be tried again at the same time. -/
def NotBoth (s : Full) : Prop :=
  ∀ n e w, s.pending.find n = some e → s.waiting.find n = some w → w.numTries = 65535

end PSync.Spec
