import Verif.Model.Full
import Verif.Proofs.Base
/-!
Frame facts about the FullProducer handlers, and: every step of a FullProducer changes its base by a
sequence of ProducerBase operations.
-/
namespace PSync
open Spec

theorem readNni_lt {bs : Bytes} {x : Nat} (h : readNni bs = some x) : x < U64 := by
  unfold readNni at h
  have hb := beNat_lt bs
  split at h
  · rename_i hl
    simp only [Option.some.injEq] at h
    subst h
    have : bs.length ≤ 8 := by omega
    calc beNat bs < 256 ^ bs.length := hb
      _ ≤ 256 ^ 8 := Nat.pow_le_pow_right (by omega) this
      _ = U64 := by decide
  · simp at h

theorem toNumber_lt {c : Component} {x : Nat} (h : c.toNumber = .ok x) : x < U64 := by
  unfold Component.toNumber Res.ofOption at h
  split at h
  · cases h; apply readNni_lt; assumption
  · simp at h

namespace Full

/-- The members a sync Interest transmission or a Data transmission leaves alone. -/
structure Core (s s' : Full) : Prop where
  base : s'.base = s.base
  now : s'.now = s.now
  pending : s'.pending = s.pending
  waiting : s'.waiting = s.waiting
  delayTimer : s'.delayTimer = s.delayTimer
  incomingFace : s'.incomingFace = s.incomingFace
  waitOut : s'.waitOut = s.waitOut

theorem Core.refl (s : Full) : Core s s := ⟨rfl, rfl, rfl, rfl, rfl, rfl, rfl⟩

theorem Core.trans {a b c : Full} (h : Core a b) (h' : Core b c) : Core a c :=
  ⟨h'.base.trans h.base, h'.now.trans h.now, h'.pending.trans h.pending, h'.waiting.trans h.waiting,
   h'.delayTimer.trans h.delayTimer, h'.incomingFace.trans h.incomingFace, h'.waitOut.trans h.waitOut⟩

/-- The three outcomes of sendSyncInterest. -/
theorem sendSyncInterest_ok {cfg : Cfg} {s s' : Full} (h : sendSyncInterest cfg s = .ok s') :
    (s.waitOut = true ∧ s' = s) ∨
    (s.waitOut = false ∧ ∃ name, syncName cfg s.base = .ok name ∧
      ((s.recentlySent = true ∧ s.outstanding = name ∧ s' = s.stopFetcher) ∨
       ((s.recentlySent = false ∨ s.outstanding ≠ name) ∧
        s' = { s with
          outstanding := name
          sched := some (s.now + cfg.lifetime / 2 + cfg.jitter s.draws, .renew)
          draws := s.draws + 1
          lastSent := some s.now
          fetcher := some ⟨name, true⟩
          log := s.log ++ [.interest name cfg.lifetime] }))) := by
  unfold sendSyncInterest at h
  by_cases hw : s.waitOut = true
  · rw [if_pos hw] at h; cases h; exact Or.inl ⟨hw, rfl⟩
  · rw [if_neg hw] at h
    right
    refine ⟨by simpa using hw, ?_⟩
    simp only [Res.bind_eq_ok] at h
    obtain ⟨name, hn, h⟩ := h
    refine ⟨name, hn, ?_⟩
    by_cases hr : (s.stopFetcher.recentlySent && decide (s.stopFetcher.outstanding = name)) = true
    · rw [if_pos hr] at h
      cases h
      simp only [Bool.and_eq_true, decide_eq_true_eq] at hr
      exact Or.inl ⟨hr.1, hr.2, rfl⟩
    · rw [if_neg hr] at h
      cases h
      right
      refine ⟨?_, by rw [running_stopFetcher, List.append_nil]; rfl⟩
      simp only [Bool.and_eq_true, decide_eq_true_eq, not_and] at hr
      by_cases h1 : s.recentlySent = true
      · exact Or.inr (hr h1)
      · left; simpa using h1

theorem sendSyncInterest_core {cfg : Cfg} {s s' : Full} (h : sendSyncInterest cfg s = .ok s') : Core s s' := by
  rcases sendSyncInterest_ok h with ⟨_, rfl⟩ | ⟨_, name, _, ⟨_, _, rfl⟩ | ⟨_, rfl⟩⟩
  · exact Core.refl _
  · exact ⟨rfl, rfl, rfl, rfl, rfl, rfl, rfl⟩
  · exact ⟨rfl, rfl, rfl, rfl, rfl, rfl, rfl⟩

theorem publish_ok {cfg : Cfg} {s s' : Full} {name : Name} {buf : Bytes} {fr : Nat}
    (h : publish cfg s name buf fr = .ok s') :
    ∃ r, s.pub.publish cfg.imsLimit s.now (cfg.version s.replies.length) name name buf fr = .ok r ∧
      s' = { s with pub := r.1, replies := s.replies ++ [(name, buf, fr)], log := s.log ++ r.2.map Out.data } := by
  unfold publish at h
  simp only [Res.bind_eq_ok, Res.ok.injEq] at h
  obtain ⟨r, hr, rfl⟩ := h
  exact ⟨r, hr, rfl⟩

theorem publish_core {cfg : Cfg} {s s' : Full} {name : Name} {buf : Bytes} {fr : Nat}
    (h : publish cfg s name buf fr = .ok s') : Core s s' := by
  obtain ⟨r, _, rfl⟩ := publish_ok h
  exact ⟨rfl, rfl, rfl, rfl, rfl, rfl, rfl⟩

theorem sendSyncData_core {cfg : Cfg} {s s' : Full} {name : Name} {c : Bytes} {fr : Nat}
    (h : sendSyncData cfg s name c fr = .ok s') : Core s s' := by
  unfold sendSyncData at h
  simp only [Res.bind_eq_ok] at h
  obtain ⟨buf, _, s1, h1, h2⟩ := h
  have hc1 := publish_core h1
  have hc0 : Core s (if (decide (s.outstanding = name) && s.fetcher.isSome) = true then
      { s.stopFetcher with outstanding := [] } else s) := by
    split
    · exact ⟨rfl, rfl, rfl, rfl, rfl, rfl, rfl⟩
    · exact Core.refl _
  refine hc0.trans (hc1.trans ?_)
  split at h2
  · exact sendSyncInterest_core h2
  · cases h2; exact Core.refl _

/-! Fields untouched by the waiting-list helpers -/

theorem markWaiting_eq (s : Full) (n : Name) :
    s.markWaiting n = { s with waiting := (s.markWaiting n).waiting } := by
  unfold markWaiting
  split <;> rfl

theorem scheduleProcess_eq (cfg : Cfg) (s : Full) :
    scheduleProcess cfg s = { s with delayTimer := (scheduleProcess cfg s).delayTimer, draws := (scheduleProcess cfg s).draws } := by
  unfold scheduleProcess
  split
  · rfl
  · split
    · rfl
    · rename_i h; rw [h]; cases s; simp only at h; subst h; rfl

@[simp] theorem markWaiting_base (s : Full) (n : Name) : (s.markWaiting n).base = s.base := by
  rw [markWaiting_eq]

@[simp] theorem scheduleProcess_base (cfg : Cfg) (s : Full) : (scheduleProcess cfg s).base = s.base := by
  rw [scheduleProcess_eq]

theorem waitOrGiveUp_base (cfg : Cfg) (s : Full) (i : Interest) (t : Bool) :
    (waitOrGiveUp cfg s i t).1.base = s.base := by
  unfold waitOrGiveUp
  split
  · split
    · simp
    · rfl
  · split
    · split <;> simp
    · rfl

theorem isFutureHash_base (b : Base) (p : Name) (neg : List U32) :
    (isFutureHash b p neg).2 = (b.addUserNode p).2 := by
  unfold isFutureHash
  have := (Base.index_eq b p).2
  generalize b.index p = x at this ⊢
  obtain ⟨a, c⟩ := x
  exact this

theorem collect_steps {R : Name → Prop} (neg : List U32) (hs : List U32) :
    ∀ (b : Base) (acc : List Name), Base.Steps R b (collect neg b hs acc).2 := by
  induction hs with
  | nil => intro b acc; exact Base.Steps.refl
  | cons h hs ih =>
    intro b acc
    unfold collect
    cases hf : b.biMap.findLeft h with
    | none => exact ih b acc
    | some n =>
      simp only
      have h1 : Base.Steps R b (b.index (Name.dropLast n 1)).2 := Relation.ReflTransGen.single (Base.step_index b _)
      generalize b.index (Name.dropLast n 1) = x at h1 ⊢
      obtain ⟨seq, b1⟩ := x
      simp only at h1 ⊢
      split
      · have h2 : Base.Steps R b1 (isFutureHash b1 (Name.dropLast n 1) neg).2 := by
          rw [isFutureHash_base]
          exact Relation.ReflTransGen.single (.add _)
        generalize isFutureHash b1 (Name.dropLast n 1) neg = y at h2 ⊢
        obtain ⟨fut, b2⟩ := y
        simp only at h2 ⊢
        split
        · exact h1.trans (h2.trans (ih _ _))
        · exact h1.trans (h2.trans (ih _ _))
      · exact h1.trans (ih _ _)

theorem onUndecodable_base {cfg : Cfg} {s s' : Full} {i : Interest} {t : Bool} {n : Nat} {d : IBLTDiff}
    (h : onUndecodable cfg s i t n d = .ok s') : s'.base = s.base := by
  unfold onUndecodable at h
  split at h
  · have hw := waitOrGiveUp_base cfg s i t
    generalize waitOrGiveUp cfg s i t = x at h hw
    obtain ⟨s1, g⟩ := x
    cases g
    · simp only [Res.ok.injEq] at h; subst h; exact hw
    · simp only at h
      rw [(sendSyncInterest_core h).base]
      exact hw
  · split at h
    · cases h; rfl
    · simp only at h
      split at h
      · cases h; simp
      · simp only [Res.bind_eq_ok, Res.ok.injEq] at h
        obtain ⟨s1, h1, rfl⟩ := h
        simp only [markWaiting_base]
        exact (sendSyncData_core h1).base

theorem onDecoded_steps {R : Name → Prop} {cfg : Cfg} {s s' : Full} {i : Interest} {t : Bool} {ib : Table}
    {d : IBLTDiff} (h : onDecoded cfg s i t ib d = .ok s') : Base.Steps R s.base s'.base := by
  unfold onDecoded at h
  split at h
  · simp only [Res.ok.injEq] at h
    subst h
    split
    · simp only [markWaiting_base]; exact Base.Steps.refl
    · exact Base.Steps.refl
  · split at h
    · simp only [Res.ok.injEq] at h
      subst h
      exact Base.Steps.of_eq (waitOrGiveUp_base _ _ _ _)
    · have h1 := collect_steps (R := R) d.negative d.positive s.base []
      generalize collect d.negative s.base d.positive [] = x at h h1
      obtain ⟨content, b⟩ := x
      simp only at h h1
      split at h
      · cases h; exact h1
      · simp only [Res.bind_eq_ok, Res.ok.injEq] at h
        obtain ⟨s1, h2, rfl⟩ := h
        simp only [markWaiting_base]
        rw [(sendSyncData_core h2).base]
        exact h1

/-- The ways through onSyncInterest. -/
theorem onSyncInterest_cases {cfg : Cfg} {s s' : Full} {i : Interest} {t : Bool}
    (h : onSyncInterest cfg s i t = .ok s') :
    (∃ d, s.pub.replyFromStore i.name = some d ∧ s' = s.emit (.data d)) ∨
    (s.pub.replyFromStore i.name = none ∧
      ((∃ d, (i.name.drop cfg.syncPrefix.length).length = 4 ∧ nackData cfg s.base cfg.syncPrefix = .ok d ∧
          s' = s.emit (.data d)) ∨
       s' = s ∨
       (∃ c2 c1 num iblt diff, (i.name.drop cfg.syncPrefix.length).length = 2 ∧ i.name.getFromEnd 2 = .ok c2 ∧
          i.name.getFromEnd 1 = .ok c1 ∧ c1.toNumber = .ok num ∧
          Table.initialize cfg.ibltCodec cfg.expected c2 = .ok iblt ∧
          Table.diff cfg.fuel s.base.iblt iblt = .ok diff ∧
          ((diff.canDecode = false ∧ onUndecodable cfg s i t num diff = .ok s') ∨
           (diff.canDecode = true ∧ onDecoded cfg s i t iblt diff = .ok s'))))) := by
  unfold onSyncInterest at h
  cases hr : s.pub.replyFromStore i.name with
  | some d =>
    simp only [hr, Res.ok.injEq] at h
    exact Or.inl ⟨d, rfl, h.symm⟩
  | none =>
    right
    refine ⟨rfl, ?_⟩
    simp only [hr] at h
    split at h
    · rename_i h4
      simp only [Res.bind_eq_ok, Res.ok.injEq] at h
      obtain ⟨d, hd, h⟩ := h
      exact Or.inl ⟨d, h4, hd, h.symm⟩
    · split at h
      · cases h; exact Or.inr (Or.inl rfl)
      · rename_i h2
        simp only [Res.bind_eq_ok] at h
        obtain ⟨c2, hc2, c1, hc1, num, hnum, h⟩ := h
        cases hi : Table.initialize cfg.ibltCodec cfg.expected c2 with
        | throw e => simp only [hi, Res.ok.injEq] at h; exact Or.inr (Or.inl h.symm)
        | ub u => simp [hi] at h
        | hang => simp [hi] at h
        | ok iblt =>
          simp only [hi, Res.bind_eq_ok] at h
          obtain ⟨diff, hd, h⟩ := h
          refine Or.inr (Or.inr ⟨c2, c1, num, iblt, diff, not_not.mp h2, hc2, hc1, hnum, hi, hd, ?_⟩)
          cases hcd : diff.canDecode
          · simp only [hcd, Bool.not_false, if_true] at h
            exact Or.inl ⟨rfl, h⟩
          · simp only [hcd, Bool.not_true, Bool.false_eq_true, if_false] at h
            exact Or.inr ⟨rfl, h⟩

theorem onSyncInterest_steps {R : Name → Prop} {cfg : Cfg} {s s' : Full} {i : Interest} {t : Bool}
    (h : onSyncInterest cfg s i t = .ok s') : Base.Steps R s.base s'.base := by
  rcases onSyncInterest_cases h with ⟨d, _, rfl⟩ | ⟨_, ⟨d, _, _, rfl⟩ | rfl | ⟨c2, c1, num, ib, df, _, _, _, _, _, _, h1⟩⟩
  · exact Base.Steps.refl
  · exact Base.Steps.refl
  · exact Base.Steps.refl
  · rcases h1 with ⟨_, h1⟩ | ⟨_, h1⟩
    · exact Base.Steps.of_eq (onUndecodable_base h1)
    · exact onDecoded_steps h1

theorem processOne_steps {R : Name → Prop} {cfg : Cfg} {s s' : Full} {n : Name}
    (h : processOne cfg s n = .ok s') : Base.Steps R s.base s'.base := by
  unfold processOne at h
  cases hw : s.waiting.find n with
  | none => simp only [hw, Res.ok.injEq] at h; subst h; exact Base.Steps.refl
  | some w =>
    simp only [hw] at h
    split at h
    · cases h; exact Base.Steps.refl
    · simp only [Res.bind_eq_ok] at h
      obtain ⟨s1, h1, h2⟩ := h
      have h3 := onSyncInterest_steps (R := R) h1
      simp only at h3
      cases hw2 : s1.waiting.find n with
      | none => simp only [hw2, Res.ok.injEq] at h2; subst h2; exact h3
      | some w2 =>
        simp only [hw2] at h2
        split at h2
        · cases h2; exact h3
        · cases h2; exact h3

theorem processWaiting_steps {R : Name → Prop} {cfg : Cfg} {s s' : Full}
    (h : processWaiting cfg s = .ok s') : Base.Steps R s.base s'.base :=
  foldRes_rel (Q := fun a b : Full => Base.Steps R a.base b.base) (fun _ => Base.Steps.refl)
    (fun _ _ _ => Base.Steps.trans) _ (fun _ _ _ _ => processOne_steps) h

theorem satisfyOne_core {cfg : Cfg} {u : Name} {s s' : Full} {e : Name × FPending}
    (h : satisfyOne cfg u s e = .ok s') : s'.base = s.base := by
  unfold satisfyOne at h
  simp only [Res.bind_eq_ok, Res.ok.injEq] at h
  obtain ⟨d, _, s1, h1, rfl⟩ := h
  exact (sendSyncData_core h1).base

theorem satisfyPending_base {cfg : Cfg} {u : Name} {s s' : Full}
    (h : satisfyPending cfg s u = .ok s') : s'.base = s.base :=
  foldRes_rel (Q := fun a b : Full => b.base = a.base) (fun _ => rfl)
    (fun _ _ _ h1 h2 => h2.trans h1) _ (fun _ _ _ _ => satisfyOne_core) h

theorem newSeq_lt (q : Option Nat) (c : Nat) : newSeq q c < U64 := by
  unfold newSeq
  split <;> exact Nat.mod_lt _ (by decide)

theorem publishName_base {cfg : Cfg} {s s' : Full} {p : Name} {q : Option Nat}
    (h : publishName cfg s p q = .ok s') :
    (s.base.prefixes.find p = none ∧ s' = s) ∨
    ∃ cur, s.base.prefixes.find p = some cur ∧ s.base.updateSeqNo p (newSeq q cur) = .ok s'.base := by
  unfold publishName at h
  cases hp : s.base.prefixes.find p with
  | none => simp only [hp, Res.ok.injEq] at h; exact Or.inl ⟨rfl, h.symm⟩
  | some cur =>
    simp only [hp, Res.bind_eq_ok] at h
    obtain ⟨b, h1, h2⟩ := h
    right
    refine ⟨cur, rfl, ?_⟩
    rw [satisfyPending_base h2]
    exact h1

theorem call_steps {cfg : Cfg} {s s' : Full} {c : Call} (h : call cfg s c = .ok s') :
    Base.Steps (fun p => c.Removes p) s.base s'.base := by
  cases c with
  | addUserNode p =>
    simp only [call, Res.ok.injEq] at h
    subst h
    exact Relation.ReflTransGen.single (.add p)
  | removeUserNode p =>
    simp only [call, Res.bind_eq_ok, Res.ok.injEq] at h
    obtain ⟨b, h1, rfl⟩ := h
    exact Relation.ReflTransGen.single (.remove p rfl h1)
  | publishName p q =>
    simp only [call] at h
    rcases publishName_base h with ⟨_, rfl⟩ | ⟨cur, _, h1⟩
    · exact Base.Steps.refl
    · exact Relation.ReflTransGen.single (.update p _ (newSeq_lt _ _) h1)

theorem calls_steps {cfg : Cfg} {s s' : Full} {cs : List Call} (h : foldRes (call cfg) s cs = .ok s') :
    Base.Steps (fun p => ∃ c ∈ cs, c.Removes p) s.base s'.base :=
  foldRes_rel (Q := fun a b : Full => Base.Steps _ a.base b.base) (fun _ => Base.Steps.refl)
    (fun _ _ _ => Base.Steps.trans) cs
    (fun _ c _ hc h => (call_steps h).mono (fun _ hp => ⟨c, hc, hp⟩)) h

theorem merge_steps {R : Name → Prop} {face : Nat} (ns : List Name) : ∀ {b : Base} {acc : List MissingDataInfo}
    {r : List MissingDataInfo × Base}, merge face b ns acc = .ok r → Base.Steps R b r.2 := by
  induction ns with
  | nil => intro b acc r h; simp only [merge, Res.ok.injEq] at h; subst h; exact Base.Steps.refl
  | cons n ns ih =>
    intro b acc r h
    unfold merge at h
    simp only [Res.bind_eq_ok] at h
    obtain ⟨c, _, q, hq, h⟩ := h
    have h1 : Base.Steps R b (b.index (Name.dropLast n 1)).2 := Relation.ReflTransGen.single (Base.step_index b _)
    generalize b.index (Name.dropLast n 1) = x at h h1
    obtain ⟨cur, b1⟩ := x
    simp only at h h1
    split at h
    · simp only [Res.bind_eq_ok] at h
      obtain ⟨b2, h2, h3⟩ := h
      exact h1.trans ((Relation.ReflTransGen.single (.update _ _ (toNumber_lt hq) h2)).trans (ih h3))
    · exact ih h

theorem onSyncData_steps {cfg : Cfg} {s s' : Full} {n : Name} {buf : Bytes} {acts : List Call}
    (h : onSyncData cfg s n buf acts = .ok s') :
    Base.Steps (fun p => ∃ c ∈ acts, c.Removes p) s.base s'.base := by
  unfold onSyncData at h
  simp only at h
  split at h
  · cases h; exact Base.Steps.refl
  · simp only [Res.bind_eq_ok] at h
    obtain ⟨r, h1, h2⟩ := h
    have hm := merge_steps (R := fun p => ∃ c ∈ acts, c.Removes p) _ h1
    split at h2
    · cases h2; exact hm
    · simp only [Res.bind_eq_ok] at h2
      obtain ⟨s1, h3, h4⟩ := h2
      have h5 := calls_steps h3
      have h6 := processWaiting_steps (R := fun p => ∃ c ∈ acts, c.Removes p) h4
      exact hm.trans (h5.trans h6)

theorem step_steps {cfg : Cfg} {s s' : Full} {op : Op} (h : step cfg s op = .ok s') :
    Base.Steps (fun p => op.Removes p) s.base s'.base := by
  cases op with
  | call c => exact call_steps h
  | recvInterest i =>
    simp only [step] at h
    split at h
    · exact onSyncInterest_steps h
    · cases h; exact Base.Steps.refl
  | segment f =>
    simp only [step] at h
    split at h
    · cases h; split <;> exact Base.Steps.refl
    · cases h; exact Base.Steps.refl
  | complete buf acts =>
    simp only [step] at h
    split at h
    · split at h
      · exact onSyncData_steps (s := s.stopFetcher) h
      · cases h; exact Base.Steps.refl
    · cases h; exact Base.Steps.refl
  | error t =>
    simp only [step] at h
    split at h
    · split at h
      · cases h; split <;> exact Base.Steps.refl
      · cases h; exact Base.Steps.refl
    · cases h; exact Base.Steps.refl
  | tick t =>
    simp only [step, Res.ok.injEq] at h
    subst h
    split <;> exact Base.Steps.refl
  | fireSync =>
    simp only [step] at h
    split at h
    · split at h
      · split at h
        · exact Base.Steps.of_eq ((sendSyncInterest_core h).base)
        · exact Base.Steps.of_eq ((sendSyncInterest_core h).base)
      · cases h; exact Base.Steps.refl
    · cases h; exact Base.Steps.refl
  | fireDelay =>
    simp only [step] at h
    split at h
    · split at h
      · simp only [Res.bind_eq_ok, Res.ok.injEq] at h
        obtain ⟨s1, h1, rfl⟩ := h
        simp only [scheduleProcess_base]
        exact processWaiting_steps (s := { s with delayTimer := none }) h1
      · cases h; exact Base.Steps.refl
    · cases h; exact Base.Steps.refl
  | expire n =>
    simp only [step] at h
    split at h
    · cases h; split <;> exact Base.Steps.refl
    · cases h; exact Base.Steps.refl
  | fireStore =>
    simp only [step, Res.ok.injEq] at h
    subst h; exact Base.Steps.refl

theorem run_steps {cfg : Cfg} {s s' : Full} {ops : List Op} (h : run cfg s ops = .ok s') :
    Base.Steps (fun p => ∃ op ∈ ops, op.Removes p) s.base s'.base :=
  foldRes_rel (Q := fun a b : Full => Base.Steps _ a.base b.base) (fun _ => Base.Steps.refl)
    (fun _ _ _ => Base.Steps.trans) ops
    (fun _ o _ ho h => (step_steps h).mono (fun _ hp => ⟨o, ho, hp⟩)) h

theorem init_base {cfg : Cfg} {s : Full} (h : init cfg = .ok s) : s.base = Base.new cfg := by
  unfold init at h
  rw [(sendSyncInterest_core h).base]; rfl

theorem reach_steps {cfg : Cfg} {s : Full} (h : Reach cfg s) : Base.Steps (fun _ => True) (Base.new cfg) s.base := by
  obtain ⟨s0, ops, h1, h2⟩ := h
  have := run_steps h2
  rw [init_base h1] at this
  exact this.mono (fun _ _ => trivial)

theorem reach_inv {cfg : Cfg} {s : Full} (h : Reach cfg s) : s.base.Inv :=
  (reach_steps h).inv (Base.inv_new cfg)

theorem reach_exact {cfg : Cfg} {s : Full} (h : Reach cfg s) (hc : CollisionFree s.base.hist) :
    s.base.Exact cfg.expected :=
  (reach_steps h).exact (Base.inv_new cfg) hc (Base.exact_new cfg)

end Full
end PSync
