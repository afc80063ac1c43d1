import Verif.Model.ConsumerOptions
import Verif.Spec.Ieee
/-!
Spec for C97: what the constructor of a consumer makes of its arguments.
-/
namespace PSync.Spec
open Ieee

/-- `x` is the smallest of the sizes in bits that the constructor computes for k = 1 … 999 hash functions, infinity if all are NaNs. -/
structure LeastSize (log : Double → Double) (pow : Double → Double → Double) (count : Nat) (p x : Double) : Prop where
  found : x = mk false INF ∨ ∃ k, 1 ≤ k ∧ k < 1000 ∧ x = (Libm.ieee log pow).currM count p k ∧ mag x ≤ INF
  least : ∀ k, 1 ≤ k → k < 1000 → lt ((Libm.ieee log pow).currM count p k) x = false

/-- A consumer whose subscriptions can be changed: from now on, whatever happens, no call of addSubscription or removeSubscription fails,
and a prefix without a number can be subscribed. -/
def CanSubscribe (cfg : CCfg) (s0 : Cons) : Prop :=
  ∀ ops s, Cons.run cfg s0 ops = .ok s → ∀ p,
    (∀ seq cb, ∃ r s', s.addSubscription p seq cb = .ok (r, s') ∧ (s.getSeqNo p = none → r = true ∧ s'.isSubscribed p = true)) ∧
    ∃ r s', s.removeSubscription p = .ok (r, s') ∧ s'.isSubscribed p = false

/-- The claim: whatever the options are, the constructor refuses them with an exception, or the consumer can subscribe. -/
def EveryConsumerOptionWorks : Prop :=
  ∀ (log : Double → Double) (pow : Double → Double → Double), AnnexF log pow → ∀ (env : CCfg), env.libm = Libm.ieee log pow →
    ∀ (syncPrefix : Name) (o : ConsOptions), o.bfCount < 4294967296 →
    Cons.construct env syncPrefix o = .throw .bloom ∨
    ∃ s, Cons.construct env syncPrefix o = .ok s ∧ CanSubscribe (o.cfg env syncPrefix) s

/-- A consumer that cannot subscribe to anything: the first addSubscription writes to a table without bytes. -/
def NoTable (s : Cons) : Prop := ∀ p seq cb, s.addSubscription p seq cb = .ub .outOfBounds

/-- `std::log` of a NaN is a NaN, and so is `std::pow` of a NaN to a power that is not 0 (Annex F.10). -/
structure NanIn (log : Double → Double) (pow : Double → Double → Double) : Prop where
  log : ∀ x, INF < mag x → INF < mag (log x)
  pow : ∀ x y, INF < mag x → 0 < mag y → INF < mag (pow x y)

end PSync.Spec
