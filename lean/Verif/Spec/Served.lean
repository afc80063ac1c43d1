import Verif.Spec.Consumer
import Verif.Spec.InterestSafe
import Verif.Spec.Ieee
/-!
Which consumers a producer can serve.
-/
namespace PSync.Spec
open Ieee

/-- A consumer and a producer of the same sync group and on the same kind of machine. -/
structure SameGroup (log : Double → Double) (pow : Double → Double → Double) (pc : Cfg) (cc : CCfg) : Prop where
  syncPrefix : cc.syncPrefix = pc.syncPrefix
  consumer : cc.libm = Libm.ieee log pow
  producer : pc.libm = Libm.ieee log pow
  extraSalt : cc.extraSalt = pc.extraSalt
  count : cc.bfCount < 2 ^ 32

/-- A probability from 0 up to, but not including, the literal 0.001. -/
def BelowThousandth (p : Double) : Prop := sign p = false ∧ ∃ d, IsThousandths 1 d ∧ mag p < mag d

/-- The claim: no sync Interest of a consumer makes a producer fail if it carries the current IBF of that producer, whatever
options the consumer was constructed with. -/
def EveryConsumerServed : Prop :=
  ∀ (log : Double → Double) (pow : Double → Double → Double), AnnexF log pow → ∀ (pc : Cfg) (cc : CCfg), pc.WF → 0 < pc.expected →
    0 < pc.fuel → SameGroup log pow pc cc → ∀ (s : Cons) (P : Part) (n ask : Name) (lt : Nat) (c : Component), Cons.Reach cc s → Part.Reach pc P →
      Out.interest n lt ∈ s.log → n = ask ++ [c] → P.base.iblt.toComponent pc.ibltCodec = .ok c →
      ¬ Fails (Part.step pc P (.recvInterest ⟨n, lt, 0⟩))

end PSync.Spec
