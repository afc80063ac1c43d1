import Verif.Model.StateMsg
import Verif.Model.Iblt
import Verif.Model.Bloom
/-!
Interest / Data packets, outputs, configuration.
-/
namespace PSync

/-- 2^64: sequence numbers are `uint64_t`. -/
def U64 : Nat := 18446744073709551616

/-- Interest fields PSync reads.  Time in milliseconds. -/
structure Interest where
  name : Name
  lifetime : Nat
  nonce : Nat
  deriving DecidableEq, Repr

/-- ndn::DEFAULT_INTEREST_LIFETIME. -/
def defaultLifetime : Nat := 4000

/-- The two values of Data::ContentType that PSync sets and tests (PSync/producer-base.cpp:132, PSync/consumer.cpp:229,236). -/
inductive ContentType where
  | blob | nack
  deriving DecidableEq, Repr

/-- Data fields PSync sets or reads (signature omitted: signing is out of scope and the receivers use
the accept-all validator, PSync/full-producer.cpp:146, PSync/consumer.cpp:135,221). -/
structure Data where
  name : Name
  contentType : ContentType
  content : Bytes
  freshness : Nat
  finalBlock : Option Component
  deriving DecidableEq, Repr

/-- PSync/common.hpp:63-69. -/
structure MissingDataInfo where
  pfx : Name
  lowSeq : Nat
  highSeq : Nat
  incomingFace : Nat
  deriving DecidableEq, Repr

/-- Observable effects, in order. -/
inductive Out where
  | interest (name : Name) (lifetime : Nat)      -- Interest expressed (through a SegmentFetcher)
  | data (d : Data)                              -- m_face.put
  | update (us : List MissingDataInfo)           -- UpdateCallback
  | hello (subs : NMap Nat)                      -- ReceiveHelloCallback
  deriving DecidableEq, Repr

/-- Jitter bounds, PSync/full-producer.hpp:223-225. -/
def MIN_JITTER : Nat := 100
/-- Upper bound of the jitter in ms. -/
def MAX_JITTER : Nat := 500

/-- Configuration and environment oracles of a producer. -/
structure Cfg where
  /-- Options::ibfCount / expectedNumEntries -/
  expected : Nat
  syncPrefix : Name
  ibltCodec : Codec
  contentCodec : Codec
  /-- m_syncReplyFreshness, ms -/
  freshness : Nat
  /-- m_helloReplyFreshness, ms (PartialProducer) -/
  helloFreshness : Nat
  /-- m_syncInterestLifetime, ms (FullProducer) -/
  lifetime : Nat
  /-- SegmentPublisher imsLimit, PSync/segment-publisher.hpp:40 -/
  imsLimit : Nat
  /-- the n-th draw of m_jitter(m_rng) -/
  jitter : Nat → Nat
  /-- the n-th version produced by appendVersion() -/
  version : Nat → Nat
  /-- evaluation budget of the IBLT peeling loop -/
  fuel : Nat
  /-- floating point environment (PartialProducer) -/
  libm : Libm
  /-- salts beyond the 128 predefined ones -/
  extraSalt : Nat → U32
  /-- how many ms after its deadline the scheduler may run a timer, at the latest (the event loop may be busy) -/
  lag : Nat := 0

/-- The standing assumptions on the environment oracles. -/
structure Cfg.WF (cfg : Cfg) : Prop where
  jitter_lo : ∀ n, MIN_JITTER ≤ cfg.jitter n
  jitter_hi : ∀ n, cfg.jitter n ≤ MAX_JITTER
  iblt_lossless : cfg.ibltCodec.Lossless
  content_lossless : cfg.contentCodec.Lossless

end PSync
