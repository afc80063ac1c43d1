import Verif.Model.Compression
/-!
Spec for C94: compression schemes that the library was built with and without.
-/
namespace PSync.Spec

/-- The library was built with the scheme. -/
def Available (b : Build) (s : Scheme) : Prop :=
  s = .none ∨ (s = .zlib ∧ b.zlib ≠ none) ∨ (s = .gzip ∧ b.gzip ≠ none) ∨ (s = .bzip2 ∧ b.bzip2 ≠ none) ∨
    (s = .lzma ∧ b.lzma ≠ none) ∨ (s = .zstd ∧ b.zstd ≠ none)

/-- The algorithms that the library was built with give back what was put in. -/
structure SoundBuild (b : Build) : Prop where
  zlib : ∀ f, b.zlib = some f → f.Lossless
  gzip : ∀ f, b.gzip = some f → f.Lossless
  bzip2 : ∀ f, b.bzip2 = some f → f.Lossless
  lzma : ∀ f, b.lzma = some f → f.Lossless
  zstd : ∀ f, b.zstd = some f → f.Lossless

/-- A FullProducer cannot be constructed with a scheme that the library was built without. -/
def MissingRefused : Prop :=
  ∀ (b : Build), SoundBuild b → ∀ (env : Cfg) (syncPrefix : Name) (o : FullOptions),
    ¬ (Available b o.ibfCompression ∧ Available b o.contentCompression) → ∀ s, Full.construct b env syncPrefix o ≠ .ok s

/-- What was sent is Interests and nacks; no update was reported. -/
def OnlyAsksAndNacks (l : List Out) : Prop :=
  ∀ o ∈ l, (∃ n t, o = .interest n t) ∨ ∃ d, o = .data d ∧ d.contentType = .nack

/-- FullProducers with the default options understand each other's Interests, however the libraries were built. -/
def DefaultsMeet : Prop :=
  ∀ (b1 b2 : Build), SoundBuild b1 → SoundBuild b2 → ∀ (env : Cfg) (syncPrefix : Name) (s : Full),
    Full.construct b1 env syncPrefix (FullOptions.default b1) = .ok s → ∀ n t, Out.interest n t ∈ s.log →
    ∃ c k tbl, n = syncPrefix ++ [c, k] ∧ Table.initialize (b2.codec (FullOptions.default b2).ibfCompression) 80 c = .ok tbl

end PSync.Spec
