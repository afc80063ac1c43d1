import Verif.Model.Full
import Verif.Model.Partial
import Verif.Model.Consumer
/-!
Spec for C104: nodes with IBFs of different sizes.
-/
namespace PSync.Spec

/-- The option `ibfCount` of the two producers gives IBFs of the same size: 2k-1 and 2k do. -/
def SameSize (cfg cfg' : Cfg) : Prop := (cfg.expected + 1) / 2 = (cfg'.expected + 1) / 2

instance (cfg cfg' : Cfg) : Decidable (SameSize cfg cfg') := inferInstanceAs (Decidable (_ = _))

/-- The name component is the IBF of a partial-sync producer with these options. -/
def IbfOf (cfg : Cfg) (c : Component) : Prop := ∃ s, Part.Reach cfg s ∧ s.base.iblt.toComponent cfg.ibltCodec = .ok c

end PSync.Spec
