import Verif.Model.Consumer
/-!
The constructors of `psync::Consumer`: PSync/consumer.hpp:58-98, PSync/consumer.cpp:30-59.
-/
namespace PSync

/-- `Consumer::Options`, PSync/consumer.hpp:60-74, without the callbacks (what they are told is part of the log).  Times in ms. -/
structure ConsOptions where
  bfCount : Nat
  bfFalsePositive : Double
  helloInterestLifetime : Nat
  syncInterestLifetime : Nat
  deriving DecidableEq, Repr

/-- The defaults of PSync/consumer.hpp:66-73, PSync/common.hpp:38,40: 6 subscriptions, the double nearest to 0.001, 1 s. -/
def ConsOptions.default : ConsOptions := ⟨6, 0x3F50624DD2F1A9FC#64, 1000, 1000⟩

/-- PSync/consumer.cpp:33-40: which member gets which option.  `env`: the environment (clock lag, random numbers, floating point). -/
def ConsOptions.cfg (env : CCfg) (syncPrefix : Name) (o : ConsOptions) : CCfg :=
  { env with syncPrefix := syncPrefix, bfCount := o.bfCount, bfFpp := o.bfFalsePositive, helloLifetime := o.helloInterestLifetime, syncLifetime := o.syncInterestLifetime }

/-- PSync/consumer.cpp:30-45: the constructor with options. -/
def Cons.construct (env : CCfg) (syncPrefix : Name) (o : ConsOptions) : Res Cons := Cons.init (o.cfg env syncPrefix)

/-- PSync/consumer.cpp:47-59: the deprecated constructor.  `count` is an `unsigned int`; the cast at line 56 is to a type of the
same size. -/
def Cons.constructOld (env : CCfg) (syncPrefix : Name) (count : Nat) (falsePositive : Double) (helloInterestLifetime syncInterestLifetime : Nat) : Res Cons :=
  Cons.construct env syncPrefix ⟨count % 4294967296, falsePositive, helloInterestLifetime, syncInterestLifetime⟩

end PSync
