import Verif.Proofs.Alive
/-!
What an event does to the timing of the sync Interests of a FullProducer, in small steps.
-/
namespace PSync
open Spec
namespace Full

/-- Everything that decides when sync Interests are sent is the same. -/
structure SameTiming (s s' : Full) : Prop where
  waitOut : s'.waitOut = s.waitOut
  sched : s'.sched = s.sched
  fetcher : s'.fetcher = s.fetcher
  outstanding : s'.outstanding = s.outstanding
  lastSent : s'.lastSent = s.lastSent
  now : s'.now = s.now

theorem SameTiming.refl (s : Full) : SameTiming s s := ⟨rfl, rfl, rfl, rfl, rfl, rfl⟩

/-- One small step. -/
inductive Act (cfg : Cfg) (s : Full) : Full → Prop
  | tells {s' : Full} (os : List Out) : SameTiming s s' → s'.log = s.log ++ os → (∀ n t, Out.interest n t ∉ os) → Act cfg s s'
  | free {s' : Full} : SameTiming { s with waitOut := false } s' → s'.log = s.log → Act cfg s s'
  | send {s' : Full} : sendSyncInterest cfg s = .ok s' → Act cfg s s'
  | own {s' : Full} (p : SegPub) (limit now v : Nat) (buf : Bytes) (fr : Nat) (r : SegPub × List Data) :
      p.publish limit now v s.outstanding s.outstanding buf fr = .ok r →
      SameTiming { s.stopFetcher with outstanding := [] } s' → s'.log = s.log ++ r.2.map Out.data → Act cfg s s'

abbrev Acts (cfg : Cfg) : Full → Full → Prop := Relation.ReflTransGen (Act cfg)

theorem Acts.refl {cfg : Cfg} {s : Full} : Acts cfg s s := Relation.ReflTransGen.refl

theorem Acts.trans {cfg : Cfg} {a b c : Full} (h : Acts cfg a b) (h' : Acts cfg b c) : Acts cfg a c :=
  Relation.ReflTransGen.trans h h'

theorem Acts.one {cfg : Cfg} {a b : Full} (h : Act cfg a b) : Acts cfg a b := Relation.ReflTransGen.single h

/-- Nothing that concerns the sync Interests. -/
theorem Acts.quiet {cfg : Cfg} {s s' : Full} (h : SameTiming s s') (hl : s'.log = s.log) : Acts cfg s s' :=
  .one (.tells [] h (by rw [hl, List.append_nil]) (by simp))

theorem Acts.data {cfg : Cfg} {s s' : Full} (ds : List Data) (h : SameTiming s s') (hl : s'.log = s.log ++ ds.map Out.data) :
    Acts cfg s s' := .one (.tells _ h hl (by simp))

theorem Acts.inv {cfg : Cfg} {P : Full → Prop} (hstep : ∀ a b, P a → Act cfg a b → P b) {s s' : Full} (h : Acts cfg s s')
    (hs : P s) : P s' := by
  induction h with
  | refl => exact hs
  | tail _ h ih => exact hstep _ _ ih h

theorem foldRes_acts {cfg : Cfg} {β : Type} {f : Full → β → Res Full} (hf : ∀ a x b, f a x = .ok b → Acts cfg a b) :
    ∀ (l : List β) {s s' : Full}, foldRes f s l = .ok s' → Acts cfg s s'
  | [], s, s', h => by simp only [foldRes, Res.ok.injEq] at h; subst h; exact .refl
  | x :: l, s, s', h => by
    simp only [foldRes, Res.bind_eq_ok] at h
    obtain ⟨s1, h1, h2⟩ := h
    exact (hf _ _ _ h1).trans (foldRes_acts hf l h2)

theorem sendSyncData_acts {cfg : Cfg} {s s' : Full} {name : Name} {c : Bytes} {fr : Nat}
    (h : sendSyncData cfg s name c fr = .ok s') : Acts cfg s s' := by
  unfold sendSyncData at h
  simp only [Res.bind_eq_ok] at h
  obtain ⟨buf, _, s1, h1, h2⟩ := h
  have h0 : Acts cfg s s1 := by
    obtain ⟨r, hr, rfl⟩ := publish_ok h1
    split at hr
    · rename_i ho
      rw [if_pos ho]
      simp only [Bool.and_eq_true, decide_eq_true_eq] at ho
      obtain ⟨rfl, _⟩ := ho
      exact .one (.own _ _ _ _ _ _ r hr ⟨rfl, rfl, rfl, rfl, rfl, rfl⟩ rfl)
    · rename_i ho
      rw [if_neg ho]
      exact .data r.2 ⟨rfl, rfl, rfl, rfl, rfl, rfl⟩ rfl
  split at h2
  · exact h0.trans (.one (.send h2))
  · cases h2; exact h0

theorem markWaiting_acts {cfg : Cfg} {s : Full} (n : Name) : Acts cfg s (s.markWaiting n) := by
  rw [markWaiting_eq]
  exact .quiet ⟨rfl, rfl, rfl, rfl, rfl, rfl⟩ rfl

theorem scheduleProcess_acts {cfg cfg' : Cfg} {s : Full} : Acts cfg s (scheduleProcess cfg' s) := by
  rw [scheduleProcess_eq]
  exact .quiet ⟨rfl, rfl, rfl, rfl, rfl, rfl⟩ rfl

theorem waitOrGiveUp_acts {cfg : Cfg} {s : Full} (i : Interest) (t : Bool) : Acts cfg s (waitOrGiveUp cfg s i t).1 := by
  unfold waitOrGiveUp
  split
  · split
    · have h0 : Acts cfg s { s with waiting := s.waiting.set i.name ⟨0, i.nonce⟩ } := .quiet ⟨rfl, rfl, rfl, rfl, rfl, rfl⟩ rfl
      exact h0.trans scheduleProcess_acts
    · exact .refl
  · split
    · split
      · exact markWaiting_acts _
      · exact .refl
    · exact .refl

theorem onSyncInterest_acts {cfg : Cfg} {s s' : Full} {i : Interest} {t : Bool}
    (h : onSyncInterest cfg s i t = .ok s') : Acts cfg s s' := by
  rcases onSyncInterest_cases h with ⟨x, _, rfl⟩ | ⟨_, ⟨x, _, _, rfl⟩ | rfl | ⟨c2, c1, num, ib, df, _, _, _, _, _, _, h1⟩⟩
  · exact .data [x] ⟨rfl, rfl, rfl, rfl, rfl, rfl⟩ rfl
  · exact .data [x] ⟨rfl, rfl, rfl, rfl, rfl, rfl⟩ rfl
  · exact .refl
  · rcases h1 with ⟨_, h1⟩ | ⟨_, h1⟩
    · unfold onUndecodable at h1
      split at h1
      · have hw := waitOrGiveUp_acts (cfg := cfg) (s := s) i t
        generalize waitOrGiveUp cfg s i t = x at h1 hw
        obtain ⟨s1, g⟩ := x
        cases g
        · simp only [Res.ok.injEq] at h1; subst h1; exact hw
        · exact hw.trans (.one (.send h1))
      · split at h1
        · cases h1; exact .refl
        · simp only at h1
          split at h1
          · cases h1; exact markWaiting_acts _
          · simp only [Res.bind_eq_ok, Res.ok.injEq] at h1
            obtain ⟨s1, h2, rfl⟩ := h1
            exact ((sendSyncData_acts h2).trans (.quiet (s' := s1.deletePending i.name) ⟨rfl, rfl, rfl, rfl, rfl, rfl⟩ rfl)).trans
              (markWaiting_acts _)
    · unfold onDecoded at h1
      split at h1
      · simp only [Res.ok.injEq] at h1
        subst h1
        have h0 : ∀ m, Acts cfg s { s with pending := m } := fun m => .quiet ⟨rfl, rfl, rfl, rfl, rfl, rfl⟩ rfl
        split
        · exact (h0 _).trans (markWaiting_acts _)
        · exact h0 _
      · split at h1
        · simp only [Res.ok.injEq] at h1
          subst h1
          exact waitOrGiveUp_acts _ _
        · generalize collect df.negative s.base df.positive [] = x at h1
          obtain ⟨content, b⟩ := x
          simp only at h1
          have h0 : Acts cfg s { s with base := b } := .quiet ⟨rfl, rfl, rfl, rfl, rfl, rfl⟩ rfl
          split at h1
          · cases h1; exact h0
          · simp only [Res.bind_eq_ok, Res.ok.injEq] at h1
            obtain ⟨s1, h2, rfl⟩ := h1
            exact (h0.trans (sendSyncData_acts h2)).trans (markWaiting_acts _)

theorem processOne_acts {cfg : Cfg} {s s' : Full} {n : Name} (h : processOne cfg s n = .ok s') : Acts cfg s s' := by
  unfold processOne at h
  cases hw : s.waiting.find n with
  | none => simp only [hw, Res.ok.injEq] at h; subst h; exact .refl
  | some w =>
    simp only [hw] at h
    split at h
    · cases h; exact .quiet ⟨rfl, rfl, rfl, rfl, rfl, rfl⟩ rfl
    · simp only [Res.bind_eq_ok] at h
      obtain ⟨s1, h1, h2⟩ := h
      have h0 : ∀ m, Acts cfg s { s with waiting := m } := fun m => .quiet ⟨rfl, rfl, rfl, rfl, rfl, rfl⟩ rfl
      have h3 : Acts cfg s s1 := (h0 _).trans (onSyncInterest_acts h1)
      cases hw2 : s1.waiting.find n with
      | none => simp only [hw2, Res.ok.injEq] at h2; subst h2; exact h3
      | some w2 =>
        simp only [hw2] at h2
        split at h2
        · cases h2; exact h3.trans (.quiet ⟨rfl, rfl, rfl, rfl, rfl, rfl⟩ rfl)
        · cases h2; exact h3

theorem processWaiting_acts {cfg : Cfg} {s s' : Full} (h : processWaiting cfg s = .ok s') : Acts cfg s s' :=
  foldRes_acts (fun _ _ _ h => processOne_acts h) _ h

theorem call_acts {cfg : Cfg} {s s' : Full} {c : Call} (h : call cfg s c = .ok s') : Acts cfg s s' := by
  cases c with
  | addUserNode p =>
    simp only [call, Res.ok.injEq] at h
    subst h
    exact .quiet ⟨rfl, rfl, rfl, rfl, rfl, rfl⟩ rfl
  | removeUserNode p =>
    simp only [call, Res.bind_eq_ok, Res.ok.injEq] at h
    obtain ⟨b, h1, rfl⟩ := h
    exact .quiet ⟨rfl, rfl, rfl, rfl, rfl, rfl⟩ rfl
  | publishName p q =>
    simp only [call, publishName] at h
    split at h
    · cases h; exact .refl
    · rename_i cur _
      simp only [Res.bind_eq_ok] at h
      obtain ⟨b, _, h2⟩ := h
      unfold satisfyPending at h2
      have h0 : Acts cfg s { s with base := b, waitOut := false, made := s.made ++ [(p, newSeq q cur)] } :=
        .one (.free ⟨rfl, rfl, rfl, rfl, rfl, rfl⟩ rfl)
      refine h0.trans (foldRes_acts ?_ _ h2)
      intro a e b' h3
      unfold satisfyOne at h3
      simp only [Res.bind_eq_ok, Res.ok.injEq] at h3
      obtain ⟨d, _, s1, h4, rfl⟩ := h3
      exact (sendSyncData_acts h4).trans (.quiet ⟨rfl, rfl, rfl, rfl, rfl, rfl⟩ rfl)

/-- What a fetched reply does. -/
theorem onSyncData_acts {cfg : Cfg} {s s' : Full} {n : Name} {buf : Bytes} {acts : List Call}
    (h : onSyncData cfg s n buf acts = .ok s') :
    (decodeReply cfg buf = none ∧ s' = s.deletePending n) ∨
    (∃ ns, decodeReply cfg buf = some ns ∧ s'.waitOut = true ∧ s'.sched = some (s.now + (cfg.freshness + cfg.jitter s.draws), .waitOut) ∧
      s'.fetcher = s.fetcher ∧ s'.outstanding = s.outstanding ∧ s'.lastSent = s.lastSent ∧ s'.now = s.now ∧ s'.log = s.log) ∨
    (∃ ns us s1, decodeReply cfg buf = some ns ∧ Acts cfg (s.emit (.update us)) s1 ∧ Acts cfg { s1 with
      sched := some (s1.now + cfg.jitter s1.draws, .renew), draws := s1.draws + 1, waitOut := false } s') := by
  unfold onSyncData at h
  simp only at h
  split at h
  · rename_i hd
    cases h; exact Or.inl ⟨hd, rfl⟩
  · rename_i ns hd
    simp only [Res.bind_eq_ok] at h
    obtain ⟨r, h1, h2⟩ := h
    right
    split at h2
    · cases h2
      exact Or.inl ⟨ns, hd, rfl, rfl, rfl, rfl, rfl, rfl, rfl⟩
    · simp only [Res.bind_eq_ok] at h2
      obtain ⟨s1, h3, h4⟩ := h2
      refine Or.inr ⟨ns, r.1, s1, hd, ?_, processWaiting_acts h4⟩
      have h0 : Acts cfg (s.emit (.update r.1)) (({ s.deletePending n with base := r.2 } : Full).emit (.update r.1)) :=
        .quiet ⟨rfl, rfl, rfl, rfl, rfl, rfl⟩ rfl
      exact h0.trans (foldRes_acts (fun _ _ _ h => call_acts h) _ h3)

/-- The events: small steps, the clock, the timer, and the end of a fetch. -/
theorem step_acts {cfg : Cfg} {s s' : Full} {op : Op} (h : step cfg s op = .ok s') :
    Acts cfg s s' ∨
    (∃ t, op = .tick t ∧ s.now ≤ t ∧ s.timersAfter cfg t = true ∧ s' = { s with now := t }) ∨
    (∃ d k s0, op = .fireSync ∧ s.sched = some (d, k) ∧ d ≤ s.now ∧
      (s0 = { s with sched := none } ∨ s0 = { s with sched := none, waitOut := false }) ∧ sendSyncInterest cfg s0 = .ok s') ∨
    (∃ f t, op = .error t ∧ s.fetcher = some f ∧ f.active = true ∧
      s' = if t then s.stopFetcher else { s.stopFetcher with sched := some (s.now + cfg.jitter s.draws, .renew), draws := s.draws + 1 }) ∨
    (∃ f buf acts, op = .complete buf acts ∧ s.fetcher = some f ∧ f.active = true ∧
      onSyncData cfg s.stopFetcher f.name buf acts = .ok s') := by
  cases op with
  | call c => exact Or.inl (call_acts h)
  | recvInterest i =>
    simp only [step] at h
    split at h
    · exact Or.inl (onSyncInterest_acts h)
    · cases h; exact Or.inl .refl
  | segment f =>
    left
    simp only [step] at h
    split at h
    · cases h
      split
      · exact .quiet ⟨rfl, rfl, rfl, rfl, rfl, rfl⟩ rfl
      · exact .refl
    · cases h; exact .refl
  | complete buf acts =>
    simp only [step] at h
    split at h
    · rename_i f hf
      split at h
      · rename_i ha
        exact Or.inr (Or.inr (Or.inr (Or.inr ⟨f, buf, acts, rfl, hf, ha, h⟩)))
      · cases h; exact Or.inl .refl
    · cases h; exact Or.inl .refl
  | error t =>
    simp only [step] at h
    split at h
    · rename_i f hf
      split at h
      · rename_i ha
        simp only [Res.ok.injEq] at h
        exact Or.inr (Or.inr (Or.inr (Or.inl ⟨f, t, rfl, hf, ha, h.symm⟩)))
      · cases h; exact Or.inl .refl
    · cases h; exact Or.inl .refl
  | tick t =>
    simp only [step, Res.ok.injEq] at h
    subst h
    split
    · rename_i ht
      simp only [Bool.and_eq_true, decide_eq_true_eq] at ht
      exact Or.inr (Or.inl ⟨t, rfl, ht.1, ht.2, rfl⟩)
    · exact Or.inl .refl
  | fireSync =>
    simp only [step] at h
    split at h
    · rename_i d k hd
      split at h
      · rename_i hdue
        refine Or.inr (Or.inr (Or.inl ?_))
        split at h
        · exact ⟨d, _, _, rfl, hd, hdue, Or.inl rfl, h⟩
        · exact ⟨d, _, _, rfl, hd, hdue, Or.inr rfl, h⟩
      · cases h; exact Or.inl .refl
    · cases h; exact Or.inl .refl
  | fireDelay =>
    left
    simp only [step] at h
    split at h
    · split at h
      · simp only [Res.bind_eq_ok, Res.ok.injEq] at h
        obtain ⟨s1, h1, rfl⟩ := h
        have h0 : Acts cfg s { s with delayTimer := none } := .quiet ⟨rfl, rfl, rfl, rfl, rfl, rfl⟩ rfl
        exact (h0.trans (processWaiting_acts h1)).trans scheduleProcess_acts
      · cases h; exact .refl
    · cases h; exact .refl
  | expire n =>
    left
    simp only [step] at h
    split at h
    · cases h
      split
      · exact .quiet ⟨rfl, rfl, rfl, rfl, rfl, rfl⟩ rfl
      · exact .refl
    · cases h; exact .refl
  | fireStore => simp only [step, Res.ok.injEq] at h; subst h; exact Or.inl (.quiet ⟨rfl, rfl, rfl, rfl, rfl, rfl⟩ rfl)

end Full
end PSync
