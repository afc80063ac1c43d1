import Verif.Spec.Partial
/-!
Spec for C98: two partial-sync producers with the same publications.
-/
namespace PSync.Spec

/-- The two packets are equal but for the version, the last but one component of the name. -/
def SameButVersion (d d' : Data) : Prop :=
  d = d' ∨ ∃ n v v' g, d.name = n ++ [⟨54, nniBytes v⟩, g] ∧ d'.name = n ++ [⟨54, nniBytes v'⟩, g] ∧
    d'.contentType = d.contentType ∧ d'.content = d.content ∧ d'.freshness = d.freshness ∧ d'.finalBlock = d.finalBlock

/-- Two lists of packets that are pairwise equal but for versions. -/
def SamePackets : List Data → List Data → Prop
  | [], [] => True
  | d :: ds, d' :: ds' => SameButVersion d d' ∧ SamePackets ds ds'
  | _, _ => False

/-- `r` and `r'` are what two producers in the states `s` and `s'` make of the Interest `i`: both fail in the same way, or both send the
same packets and do nothing else that can be observed, or both park the Interest for its lifetime with the same filter and IBF. -/
inductive SameFate (i : Interest) (s s' : Part) : Res Part → Res Part → Prop
  | throws (e : Err) : SameFate i s s' (.throw e) (.throw e)
  | undefined (u : UB) : SameFate i s s' (.ub u) (.ub u)
  | hangs : SameFate i s s' .hang .hang
  | sent (t t' : Part) (ds ds' : List Data) : t.log = s.log ++ ds.map Out.data → t'.log = s'.log ++ ds'.map Out.data → SamePackets ds ds' →
      t.base = s.base → t'.base = s'.base → t.pending = s.pending → t'.pending = s'.pending → SameFate i s s' (.ok t) (.ok t')
  | parked (t t' : Part) (key : Name) (bf : Bloom) (iblt : Table) : ParkedAs s t i key bf iblt → ParkedAs s' t' i key bf iblt →
      SameFate i s s' (.ok t) (.ok t')

/-- The claim: producers with the same sync prefix and options that have the same publications do the same with every Interest that neither
answers from its store. -/
def ReplicasInterchangeable : Prop :=
  ∀ (cfg : Cfg) (version : Nat → Nat) (s s' : Part), 0 < cfg.expected → Part.Reach cfg s → Part.Reach { cfg with version := version } s' →
    (∀ p, s.base.getSeqNo p = s'.base.getSeqNo p) → ∀ i, s.pub.replyFromStore i.name = none → s'.pub.replyFromStore i.name = none →
    SameFate i s s' (Part.step cfg s (.recvInterest i)) (Part.step { cfg with version := version } s' (.recvInterest i))

/-- The same Interests are parked, with the same filters and IBFs; the deadlines may differ. -/
def SameParked (a b : List (Name × PPending)) : Prop := a.map (fun e => (e.1, e.2.bf, e.2.iblt)) = b.map (fun e => (e.1, e.2.bf, e.2.iblt))

end PSync.Spec
