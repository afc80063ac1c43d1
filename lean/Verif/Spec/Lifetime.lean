import Verif.Model.Lifetime
/-!
What it means that a destroyed object is not used any more.
-/
namespace PSync

/-- Whatever happens on the Face, no code of the destroyed object runs. -/
def Spec.Untouched (l : Left) : Prop := ∀ (es : List FaceEvent) (u : UB), l.run es ≠ .ub u

/-- Whenever an object is destroyed, it is not used any more. -/
def Spec.SafeToDestroy : Prop :=
  (∀ (cfg : Cfg) (s : Full), Full.Reach cfg s → Spec.Untouched s.destroy) ∧
  (∀ (cfg : Cfg) (s : Part), Part.Reach cfg s → Spec.Untouched (s.destroy cfg)) ∧
  (∀ (cfg : CCfg) (s : Cons), Cons.Reach cfg s → Spec.Untouched s.destroy)

end PSync
