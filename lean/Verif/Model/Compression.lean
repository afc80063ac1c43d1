import Verif.Model.Partial
/-!
The choice of the compression algorithm: PSync/common.hpp:43-61, PSync/detail/util.cpp:123-239.  The algorithms themselves are
filters of Boost.Iostreams; they are parameters here.
-/
namespace PSync

/-- `CompressionScheme`, PSync/common.hpp:43-49.  (Values outside the enumeration are not modelled.) -/
inductive Scheme where
  | none | zlib | gzip | bzip2 | lzma | zstd
  deriving DecidableEq, Repr

/-- How the library was built: for each of the macros PSYNC_HAVE_ZLIB, …, PSYNC_HAVE_ZSTD (PSync/detail/util.cpp:33-47) `none` if it
is not defined, and otherwise the compressor and decompressor that Boost.Iostreams provides; these may throw. -/
structure Build where
  zlib : Option Codec
  gzip : Option Codec
  bzip2 : Option Codec
  lzma : Option Codec
  zstd : Option Codec

namespace Build

/-- `CompressionScheme::DEFAULT`, PSync/common.hpp:50-54. -/
def defaultScheme (b : Build) : Scheme := if b.zlib.isSome then .zlib else .none

/-- PSync/detail/util.cpp:123-180 `compress`; `none` = exception.  With NONE no filter is pushed, so the input is copied. -/
def compress (b : Build) (s : Scheme) (buffer : Bytes) : Option Bytes :=
  match s with
  | .none => some buffer
  | .zlib => match b.zlib with
    | some f => f.compress buffer
    | none => none
  | .gzip => match b.gzip with
    | some f => f.compress buffer
    | none => none
  | .bzip2 => match b.bzip2 with
    | some f => f.compress buffer
    | none => none
  | .lzma => match b.lzma with
    | some f => f.compress buffer
    | none => none
  | .zstd => match b.zstd with
    | some f => f.compress buffer
    | none => none

/-- PSync/detail/util.cpp:182-239 `decompress`; `none` = exception. -/
def decompress (b : Build) (s : Scheme) (buffer : Bytes) : Option Bytes :=
  match s with
  | .none => some buffer
  | .zlib => match b.zlib with
    | some f => f.decompress buffer
    | none => none
  | .gzip => match b.gzip with
    | some f => f.decompress buffer
    | none => none
  | .bzip2 => match b.bzip2 with
    | some f => f.decompress buffer
    | none => none
  | .lzma => match b.lzma with
    | some f => f.decompress buffer
    | none => none
  | .zstd => match b.zstd with
    | some f => f.decompress buffer
    | none => none

/-- What `detail::compress(scheme, ·)` and `detail::decompress(scheme, ·)` do, PSync/detail/util.cpp:123-239. -/
def codec (b : Build) (s : Scheme) : Codec := ⟨b.compress s, b.decompress s⟩

end Build

/-- `FullProducer::Options`, PSync/full-producer.hpp:47-61, without the callback (updates are part of the log).  Times in ms. -/
structure FullOptions where
  ibfCount : Nat
  ibfCompression : Scheme
  syncInterestLifetime : Nat
  syncDataFreshness : Nat
  contentCompression : Scheme
  deriving DecidableEq, Repr

/-- `PartialProducer::Options`, PSync/partial-producer.hpp:42-52. -/
structure PartOptions where
  ibfCount : Nat
  ibfCompression : Scheme
  helloDataFreshness : Nat
  syncDataFreshness : Nat
  deriving DecidableEq, Repr

/-- The defaults of PSync/full-producer.hpp:49-60, PSync/common.hpp:38-41,50-54. -/
def FullOptions.default (b : Build) : FullOptions := ⟨80, b.defaultScheme, 1000, 1000, b.defaultScheme⟩

/-- The defaults of PSync/partial-producer.hpp:44-51, PSync/common.hpp:38-41. -/
def PartOptions.default : PartOptions := ⟨40, .none, 1000, 1000⟩

/-- PSync/full-producer.cpp:38-40, PSync/producer-base.cpp:35-48: which member gets which option.  `env`: the environment (clock lag, random
numbers, the segment store, floating point). -/
def FullOptions.cfg (b : Build) (env : Cfg) (syncPrefix : Name) (o : FullOptions) : Cfg :=
  { env with expected := o.ibfCount, syncPrefix := syncPrefix, ibltCodec := b.codec o.ibfCompression, contentCodec := b.codec o.contentCompression, freshness := o.syncDataFreshness, lifetime := o.syncInterestLifetime }

/-- PSync/partial-producer.cpp:38-40, PSync/producer-base.cpp:35-48: which member gets which option. -/
def PartOptions.cfg (b : Build) (env : Cfg) (syncPrefix : Name) (o : PartOptions) : Cfg :=
  { env with expected := o.ibfCount, syncPrefix := syncPrefix, ibltCodec := b.codec o.ibfCompression, contentCodec := b.codec .none, freshness := o.syncDataFreshness, helloFreshness := o.helloDataFreshness }

/-- PSync/full-producer.cpp:34-50: the constructor with options. -/
def Full.construct (b : Build) (env : Cfg) (syncPrefix : Name) (o : FullOptions) : Res Full := Full.init (o.cfg b env syncPrefix)

/-- PSync/partial-producer.cpp:34-50: the constructor with options. -/
def Part.construct (b : Build) (env : Cfg) (syncPrefix : Name) (o : PartOptions) : Res Part := .ok (Part.init (o.cfg b env syncPrefix))

/-- `static_cast<uint32_t>(expectedNumEntries)` in PSync/full-producer.cpp:63 and the order of the options there. -/
def FullOptions.ofOld (expectedNumEntries lifetime freshness : Nat) (iblt content : Scheme) : FullOptions :=
  ⟨expectedNumEntries % 4294967296, iblt, lifetime, freshness, content⟩

/-- `static_cast<uint32_t>(expectedNumEntries)` in PSync/partial-producer.cpp:61 and the order of the options there. -/
def PartOptions.ofOld (expectedNumEntries hello freshness : Nat) (iblt : Scheme) : PartOptions :=
  ⟨expectedNumEntries % 4294967296, iblt, hello, freshness⟩

/-- PSync/full-producer.cpp:52-67: the deprecated constructor. -/
def Full.constructOld (b : Build) (env : Cfg) (expectedNumEntries : Nat) (syncPrefix userPrefix : Name) (lifetime freshness : Nat)
    (iblt content : Scheme) : Res Full :=
  let o := FullOptions.ofOld expectedNumEntries lifetime freshness iblt content
  Res.bind (Full.construct b env syncPrefix o) fun s => Full.call (o.cfg b env syncPrefix) s (.addUserNode userPrefix)

/-- PSync/partial-producer.cpp:52-65: the deprecated constructor. -/
def Part.constructOld (b : Build) (env : Cfg) (expectedNumEntries : Nat) (syncPrefix userPrefix : Name) (hello freshness : Nat)
    (iblt : Scheme) : Res Part :=
  let o := PartOptions.ofOld expectedNumEntries hello freshness iblt
  Res.bind (Part.construct b env syncPrefix o) fun s => Part.step (o.cfg b env syncPrefix) s (.addUserNode userPrefix)

end PSync
