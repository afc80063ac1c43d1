import Verif.Spec.Arrival
/-!
Spec for C93: what can become of a delayed full-sync Interest when it is looked at again.
-/
namespace PSync.Spec

/-- Nothing but the list of delayed Interests changed. -/
def OnlyList (s s' : Full) : Prop := s' = { s with waiting := s'.waiting }

/-- The Interest `n` stays delayed, and is counted as retried once more.  (The last number that can be counted to means that it is
dropped.) -/
def StaysOn (s' : Full) (n : Name) (w : Waiting) : Prop :=
  s'.waiting.find n = if w.numTries + 1 = 65535 then none else some ⟨w.numTries + 1, w.nonce⟩

/-- The Interest `n` is no longer delayed. -/
def OffList (s' : Full) (n : Name) : Prop := s'.waiting.find n = none

/-- The node sends a new sync Interest, unless it waits for a reply to become stale or has sent the same less than 100 ms ago. -/
def AsksAnew (cfg : Cfg) (s s' : Full) : Prop :=
  s'.base = s.base ∧ s'.pending = s.pending ∧
  ((s.waitOut = true ∧ s'.log = s.log) ∨
   (s.waitOut = false ∧ ∃ n, Full.syncName cfg s.base = .ok n ∧
    (((∃ t, s.lastSent = some t ∧ s.now - t < 100) ∧ s.outstanding = n ∧ s'.log = s.log) ∨
     (¬ ((∃ t, s.lastSent = some t ∧ s.now - t < 100) ∧ s.outstanding = n) ∧ s'.log = s.log ++ [.interest n cfg.lifetime]))))

/-- What becomes of a delayed Interest that carries the IBF `t` and reports `num` publications, if the difference is `diff`. -/
def RetryResult (cfg : Cfg) (s s' : Full) (n : Name) (w : Waiting) (t : Table) (num : Nat) (diff : IBLTDiff) : Prop :=
  (diff.canDecode = true ∧
    ((diff.positive = [] ∧ diff.negative = [] ∧ OffList s' n ∧ s' = { s with waiting := s'.waiting, pending := s'.pending } ∧
      (∃ e, s'.pending.find n = some e ∧ e.deadline = s.now + 4000 ∧
        (∀ e0, s.pending.find n = some e0 → e.iblt = e0.iblt) ∧ (s.pending.find n = none → e.iblt = t)) ∧
      ∀ m, m ≠ n → s'.pending.find m = s.pending.find m) ∨
     (diff.positive = [] ∧ diff.negative ≠ [] ∧ OnlyList s s' ∧ ((w.numTries = 0 ∧ StaysOn s' n w) ∨ (1 ≤ w.numTries ∧ OffList s' n))) ∨
     (diff.positive ≠ [] ∧ ∃ content, ReplyNames s.base diff content ∧
      ((content = [] ∧ OnlyList s s' ∧ StaysOn s' n w) ∨
       (content ≠ [] ∧ RepliedAs cfg s s' ⟨n, 4000, w.nonce⟩ content cfg.freshness ∧ s'.pending = s.pending ∧ OffList s' n))))) ∨
  (diff.canDecode = false ∧
    ((s.base.numOwn < num ∧ ((w.numTries = 0 ∧ OnlyList s s' ∧ StaysOn s' n w) ∨ (1 ≤ w.numTries ∧ OffList s' n ∧ AsksAnew cfg s s'))) ∨
     (num = s.base.numOwn ∧ diff.positive = [] ∧ diff.negative ≠ [] ∧ OnlyList s s' ∧ StaysOn s' n w) ∨
     (num ≤ s.base.numOwn ∧ ¬ (num = s.base.numOwn ∧ diff.positive = [] ∧ diff.negative ≠ []) ∧
      ∃ content, (∀ m, m ∈ content ↔ IsLive s.base.getSeqNo m) ∧
      ((content = [] ∧ OnlyList s s' ∧ OffList s' n) ∨
       (content ≠ [] ∧ RepliedAs cfg s s' ⟨n, 4000, w.nonce⟩ content 10 ∧ s'.pending.find n = none ∧ OffList s' n)))))

/-- The delayed Interest `n` is looked at again: it is dropped if it was answered in the meantime; it is answered from the memory
of segments if there is a segment for it, and stays on the list; otherwise it is looked at as above. -/
def RetryOf (cfg : Cfg) (s s' : Full) (n : Name) : Prop :=
  ∃ w, s.waiting.find n = some w ∧ (∀ m, m ≠ n → s'.waiting.find m = s.waiting.find m) ∧
    ((w.numTries = 65535 ∧ OnlyList s s' ∧ OffList s' n) ∨
     (w.numTries < 65535 ∧
      ((∃ d, s.pub.replyFromStore n = some d ∧ s' = { s with waiting := s'.waiting, log := s.log ++ [.data d] } ∧ StaysOn s' n w) ∨
       (s.pub.replyFromStore n = none ∧ ∀ t num, AsksWith cfg n t num →
        ∃ diff, Table.diff cfg.fuel s.base.iblt t = .ok diff ∧ RetryResult cfg s s' n w t num diff))))

/-- One after the other. -/
def InTurn (R : Full → Full → Name → Prop) : Full → List Name → Full → Prop
  | s, [], s' => s' = s
  | s, n :: ns, s' => ∃ s1, R s s1 n ∧ InTurn R s1 ns s'

end PSync.Spec
