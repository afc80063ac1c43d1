import Verif.Model.Full
import Verif.Model.Consumer
/-!
Spec for C100: what the Interests of other groups do to a full-sync node.
-/
namespace PSync.Spec

/-- An Interest with this name has no effect on the node, whatever its other fields are. -/
def Ignores (cfg : Cfg) (s : Full) (n : Name) : Prop :=
  ∀ lifetime nonce, Full.step cfg s (.recvInterest ⟨n, lifetime, nonce⟩) = .ok s

/-- C100: whatever the nodes of full-sync groups with a longer sync prefix ask, and whatever consumers with the same or a longer
sync prefix ask, a full-sync node ignores it. -/
def OthersIgnored : Prop :=
  ∀ (cfg : Cfg), cfg.WF → ∀ s, Full.Reach cfg s →
    (∀ (cfg' : Cfg) o, cfg.syncPrefix <+: cfg'.syncPrefix → cfg.syncPrefix ≠ cfg'.syncPrefix → Full.Reach cfg' o →
      ∀ n t, Out.interest n t ∈ o.log → Ignores cfg s n) ∧
    (∀ (ccfg : CCfg) o, cfg.syncPrefix <+: ccfg.syncPrefix → Cons.Reach ccfg o →
      ∀ n t, Out.interest n t ∈ o.log → Ignores cfg s n)

/-- An Interest with this name makes the node send one packet, an application nack, and does nothing else; the packet does not
answer the Interest. -/
def NacksAside (cfg : Cfg) (s : Full) (n : Name) : Prop :=
  ∃ d, d.contentType = .nack ∧ ¬ n <+: d.name ∧ ∀ lifetime nonce,
    Full.step cfg s (.recvInterest ⟨n, lifetime, nonce⟩) = .ok { s with log := s.log ++ [.data d] }

end PSync.Spec
