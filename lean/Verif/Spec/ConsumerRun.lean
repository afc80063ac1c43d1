import Verif.Spec.PubSub
/-!
A consumer whose fetches end in time.
-/
namespace PSync.Spec

/-- A run of a consumer: the states after each number of events.  A sync fetch completes only after a packet with a
FinalBlockId has arrived for the last sync Interest. -/
structure CRun (cfg : CCfg) (C : Nat → Cons) (what : Nat → Cons.Op) (len : Nat) : Prop where
  init : Cons.init cfg = .ok (C 0)
  step : ∀ n < len, Cons.step cfg (C n) (what n) = .ok (C (n + 1))
  final : ∀ n < len, ∀ buf acts, what n = .syncComplete buf acts → ∃ k < n, ∃ d, what k = .syncSegment d ∧ d.finalBlock.isSome ∧
    askedUnder (cfg.syncPrefix ++ [SYNC]) (C (k + 1)).log = askedUnder (cfg.syncPrefix ++ [SYNC]) (C n).log

/-- What a SegmentFetcher promises: no fetch goes on for more than `L` ms.  It completes or fails, for instance because
its Interests time out. -/
structure FetchesEnd (cfg : CCfg) (L : Nat) (C : Nat → Cons) (len : Nat) : Prop where
  hello : ∀ m n, m ≤ n → n ≤ len → (∀ k, m ≤ k → k ≤ n → (C k).helloFetcher = some true) →
    askedUnder (cfg.syncPrefix ++ [HELLO]) (C m).log = askedUnder (cfg.syncPrefix ++ [HELLO]) (C n).log → (C n).now ≤ (C m).now + L
  sync : ∀ m n, m ≤ n → n ≤ len → (∀ k, m ≤ k → k ≤ n → (C k).syncFetcher = some true) →
    askedUnder (cfg.syncPrefix ++ [SYNC]) (C m).log = askedUnder (cfg.syncPrefix ++ [SYNC]) (C n).log → (C n).now ≤ (C m).now + L

/-- The consumer has sent an Interest in event `k`. -/
def Asks1 (C : Nat → Cons) (k : Nat) (name : Name) : Prop := ∃ lt, Out.interest name lt ∈ (C (k + 1)).log.drop (C k).log.length

end PSync.Spec
