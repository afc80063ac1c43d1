import Verif.Spec.Compression
/-!
Spec for C95: what the constructors make of their arguments.
-/
namespace PSync.Spec

/-- The prefix `p` can be registered and published once. -/
def FullCanPublish (cfg : Cfg) (s : Full) (p : Name) : Prop :=
  ∃ s', Full.run cfg s [.call (.addUserNode p), .call (.publishName p none)] = .ok s' ∧ s'.base.getSeqNo p = some 1

/-- The prefix `p` can be registered and published once. -/
def PartCanPublish (cfg : Cfg) (s : Part) (p : Name) : Prop :=
  ∃ s', Part.run cfg s [.addUserNode p, .publishName p none] = .ok s' ∧ s'.base.getSeqNo p = some 1

/-- Every FullProducer that can be constructed can publish. -/
def EveryOptionWorks : Prop :=
  ∀ (b : Build), SoundBuild b → ∀ (env : Cfg) (syncPrefix : Name) (o : FullOptions), o.ibfCount < 4294967296 →
    ∀ s, Full.construct b env syncPrefix o = .ok s → ∀ p, FullCanPublish (o.cfg b env syncPrefix) s p

/-- A producer made by the deprecated constructor has room for as many entries as were asked for. -/
def OldHasRoom : Prop :=
  ∀ (b : Build), SoundBuild b → ∀ (env : Cfg) (expected : Nat) (syncPrefix userPrefix : Name) (lifetime freshness : Nat) (iblt content : Scheme),
    expected < 18446744073709551616 → ∀ s, Full.constructOld b env expected syncPrefix userPrefix lifetime freshness iblt content = .ok s →
    expected ≤ s.base.iblt.length

/-- `b'` is the table `b` with one more prefix, `p`, of which nothing has been published. -/
structure OneMore (b b' : Base) (p : Name) : Prop where
  iblt : b'.iblt = b.iblt
  biMap : b'.biMap = b.biMap
  numOwn : b'.numOwn = b.numOwn
  here : b'.getSeqNo p = some 0
  others : ∀ p', p' ≠ p → b'.getSeqNo p' = b.getSeqNo p'

end PSync.Spec
