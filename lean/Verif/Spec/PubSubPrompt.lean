import Verif.Spec.PubSub
/-!
A partial-sync producer and a consumer over a network that delivers in time.
-/
namespace PSync.Spec

/-- What the network promises for the last Interest under `pre` that the consumer sent in event `k`: the producer receives
it within `Δ` ms, and if it sends a packet then, that packet is received and the fetch completes, all within `Δ` ms.
Until then the consumer does not stop the fetch or start another one with a new Interest under `pre`. -/
def Exchanged (Δ : Nat) (P : Nat → Part) (C : Nat → Cons) (what : Nat → PSEv) (len : Nat) (pre : Name) (active : Cons → Prop)
    (seg : Data → Cons.Op) (done : Cons.Op → Prop) (k : Nat) : Prop :=
  ∃ a i, k < a ∧ a < len ∧ what a = .prod (.recvInterest i) ∧ (askedUnder pre (C a).log).getLast? = some i.name ∧
    active (C a) ∧ askedUnder pre (C a).log = askedUnder pre (C (k + 1)).log ∧ (C a).now ≤ (C k).now + Δ ∧
    ∀ d, Out.data d ∈ (P (a + 1)).log.drop (P a).log.length →
      ∃ s b op, a < s ∧ s < b ∧ b < len ∧ what s = .cons (seg d) ∧ what b = .cons op ∧ done op ∧ active (C b) ∧
        askedUnder pre (C b).log = askedUnder pre (C (k + 1)).log ∧ (C b).now ≤ (C k).now + Δ

/-- From event `t` on, whatever the consumer sends is delivered and answered within `Δ` ms (as far as the run reaches). -/
structure PSPrompt (cc : CCfg) (Δ : Nat) (P : Nat → Part) (C : Nat → Cons) (what : Nat → PSEv) (t len : Nat) : Prop where
  hello : ∀ k, t ≤ k → k < len → askedUnder (cc.syncPrefix ++ [HELLO]) (C k).log ≠ askedUnder (cc.syncPrefix ++ [HELLO]) (C (k + 1)).log →
    (C k).now + Δ < (C len).now → Exchanged Δ P C what len (cc.syncPrefix ++ [HELLO]) (fun s => s.helloFetcher = some true)
      .helloSegment (fun op => ∃ buf a1 a2, op = .helloComplete buf a1 a2) k
  sync : ∀ k, t ≤ k → k < len → askedUnder (cc.syncPrefix ++ [SYNC]) (C k).log ≠ askedUnder (cc.syncPrefix ++ [SYNC]) (C (k + 1)).log →
    (C k).now + Δ < (C len).now → Exchanged Δ P C what len (cc.syncPrefix ++ [SYNC]) (fun s => s.syncFetcher = some true)
      .syncSegment (fun op => ∃ buf acts, op = .syncComplete buf acts) k

end PSync.Spec
