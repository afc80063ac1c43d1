import Verif.Spec.Sync
/-!
What can become of a full-sync Interest, stated over the packets and the two lists of a node.
-/
namespace PSync.Spec

/-- The name `n` is that of a sync Interest: the sync prefix, an IBF (`t`) and a number of publications (`num`) that is
not marked as a segment number. -/
def AsksWith (cfg : Cfg) (n : Name) (t : Table) (num : Nat) : Prop :=
  ∃ c d, n = cfg.syncPrefix ++ [c, d] ∧ Table.initialize cfg.ibltCodec cfg.expected c = .ok t ∧
    readNni d.value = some num ∧ d.type ≠ 50

/-- The Interest `i` was parked until its lifetime is over, and nothing else happened.  (If it was parked before, the
entry keeps its IBF.) -/
def FullParkedAs (s s' : Full) (i : Interest) (t : Table) : Prop :=
  s' = { s with pending := s'.pending } ∧
  (∃ e, s'.pending.find i.name = some e ∧ e.deadline = s.now + i.lifetime ∧
    (∀ e0, s.pending.find i.name = some e0 → e.iblt = e0.iblt) ∧ (s.pending.find i.name = none → e.iblt = t)) ∧
  ∀ m, m ≠ i.name → s'.pending.find m = s.pending.find m

/-- The Interest `i` waits to be looked at again, and nothing else happened.  If it was waiting already nothing
happened at all; otherwise it has not been retried yet and the timer for the retries runs. -/
def DelayedAs (s s' : Full) (i : Interest) : Prop :=
  s' = { s with waiting := s'.waiting, delayTimer := s'.delayTimer, draws := s'.draws } ∧
  ((∃ w, s.waiting.find i.name = some w ∧ s' = s) ∨
   (s.waiting.find i.name = none ∧ s'.waiting.find i.name = some ⟨0, i.nonce⟩ ∧
    (∀ m, m ≠ i.name → s'.waiting.find m = s.waiting.find m) ∧ ∃ d, s'.delayTimer = some d))

/-- The Interest `i` was answered: the first packet of a reply with the names in `content` and the given freshness was
sent.  If the Interest has the name of the node's own outstanding one, a new sync Interest may follow, else nothing
does.  The numbers of the node do not change, and the Interest is not retried any more. -/
def RepliedAs (cfg : Cfg) (s s' : Full) (i : Interest) (content : List Name) (fr : Nat) : Prop :=
  ∃ v buf segs d is, IsSegmentation (i.name.appendVersion v) buf fr segs ∧ segs.head? = some d ∧
    cfg.contentCodec.decompress buf = some (encodeNames content) ∧ s'.log = s.log ++ [.data d] ++ is ∧
    (is = [] ∨ s.outstanding = i.name ∧ ∃ n, Full.syncName cfg s.base = .ok n ∧ is = [.interest n cfg.lifetime]) ∧
    s'.base = s.base ∧ (∀ w, s'.waiting.find i.name = some w → w.numTries = 65535) ∧
    ∀ m, m ≠ i.name → s'.waiting.find m = s.waiting.find m ∧ s'.pending.find m = s.pending.find m

/-- The publications to be named in a reply to a difference that decodes: those the requester does not have, unless it
has the very next number of the prefix. -/
def ReplyNames (b : Base) (diff : IBLTDiff) (content : List Name) : Prop :=
  ∀ n, n ∈ content ↔ ∃ p x, b.getSeqNo p = some x ∧ x ≠ 0 ∧ n = Name.appendNumber p x ∧
    (∃ k ∈ diff.positive, b.biMap.findLeft k = some n) ∧
    murmurName 11#32 (Name.appendNumber p ((x + 1) % 2 ^ 64)) ∉ diff.negative

end PSync.Spec
