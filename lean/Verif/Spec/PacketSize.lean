import Verif.Spec.Flow
import Verif.Model.Consumer
/-!
Spec for C90: how large the packets are.  The wire forms are those of the NDN Packet Format 0.3 (ndn-cxx `Interest::encode0x`,
`Data::wireEncode`, `MetaInfo::wireEncode`); ndn-cxx is not part of /repo.
-/
namespace PSync.Spec

/-- `ndn::MAX_NDN_PACKET_SIZE`: the face refuses to send anything larger (`Face::OversizedPacketError`). -/
def packetLimit : Nat := 8800

/-- Wire form of an Interest with the elements that the SegmentFetcher sets: Name, CanBePrefix, MustBeFresh, Nonce,
InterestLifetime. -/
def interestWire (n : Name) (nonce lifetime : Nat) : Bytes :=
  Tlv.encode ⟨5, n.toTlv.encode ++ (Tlv.encode ⟨33, []⟩ ++ (Tlv.encode ⟨18, []⟩ ++ (Tlv.encode ⟨10, beBytes 4 nonce⟩ ++
    Tlv.encode ⟨12, nniBytes lifetime⟩)))⟩

/-- Wire form of the MetaInfo of a Data: ContentType (omitted if Blob), FreshnessPeriod (omitted if 0), FinalBlockId. -/
def metaWire (d : Data) : Bytes :=
  Tlv.encode ⟨20, (if d.contentType = .blob then [] else Tlv.encode ⟨24, [3#8]⟩) ++
    ((if d.freshness = 0 then [] else Tlv.encode ⟨25, nniBytes d.freshness⟩) ++
      (match d.finalBlock with
       | none => []
       | some c => Tlv.encode ⟨26, c.encode⟩))⟩

/-- Wire form of a Data whose signature (SignatureInfo and SignatureValue elements) is `sig`. -/
def dataWire (sig : Bytes) (d : Data) : Bytes :=
  Tlv.encode ⟨6, d.name.toTlv.encode ++ (metaWire d ++ (Tlv.encode ⟨21, d.content⟩ ++ sig))⟩

/-- Prefix, IBF and signature together leave room for half a packet of content. -/
def SmallOptions (cfg : Cfg) (sig : Bytes) : Prop :=
  cfg.ibltCodec = Codec.none ∧ cfg.syncPrefix.wireValue.length + 12 * nCells cfg.expected + sig.length ≤ 4311

/-- C90: with a prefix, an IBF and a signature of moderate size, everything that a producer sends fits into a packet,
provided that the Interests it receives do. -/
def FitsPacket : Prop :=
  ∀ (cfg : Cfg) (sig : Bytes), cfg.WF → 0 < cfg.expected → SmallOptions cfg sig →
    (∀ ops s, (∀ i, Part.Op.recvInterest i ∈ ops → (interestWire i.name i.nonce i.lifetime).length ≤ packetLimit) →
      Part.run cfg (Part.init cfg) ops = .ok s → ∀ d ∈ dataOf s.log, (dataWire sig d).length ≤ packetLimit) ∧
    (∀ s0 ops s, (∀ i, Full.Op.recvInterest i ∈ ops → (interestWire i.name i.nonce i.lifetime).length ≤ packetLimit) →
      Full.init cfg = .ok s0 → Full.run cfg s0 ops = .ok s →
      (∀ d ∈ dataOf s.log, (dataWire sig d).length ≤ packetLimit) ∧
      ∀ n t nonce, Out.interest n t ∈ s.log → (interestWire n nonce t).length ≤ packetLimit)

end PSync.Spec
