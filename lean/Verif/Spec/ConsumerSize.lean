import Verif.Spec.PacketSize
/-!
Spec for C105: how large the Interests of a consumer are.
-/
namespace PSync.Spec

/-- The Data is a segment that one of the two fetchers receives in the run. -/
def Received (ops : List Cons.Op) (d : Data) : Prop := .helloSegment d ∈ ops ∨ .syncSegment d ∈ ops

/-- C105: with a prefix and a filter of moderate size, every Interest that a consumer sends fits into a packet, provided that the Data it
receives do. -/
def ConsumerFits : Prop :=
  ∀ (cfg : CCfg) (sig : Bytes) (s0 s : Cons) (ops : List Cons.Op), Cons.init cfg = .ok s0 → Cons.run cfg s0 ops = .ok s →
    39 ≤ sig.length → cfg.syncPrefix.wireValue.length + s0.bloom.bits.length ≤ 400 →
    (∀ d, Received ops d → (dataWire sig d).length ≤ packetLimit) →
    ∀ n t nonce, Out.interest n t ∈ s.log → (interestWire n nonce t).length ≤ packetLimit

end PSync.Spec
