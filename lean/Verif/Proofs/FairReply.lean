import Verif.Proofs.Group
/-!
Every reply of a FullProducer outside publishName is complete: it carries everything that the table in the Interest
lacks.
-/
namespace PSync
open Spec Base

namespace Full

/-- If `name` is the sync Interest name of an honest table, `content` has everything of `b0` it lacks. -/
def CompleteFor (cfg : Cfg) (b0 : Base) (name : Name) (content : List Name) : Prop :=
  ∀ b, Steps (fun _ => True) (Base.new cfg) b → CollisionFree b0.hist → CollisionFree b.hist →
    NoCollisions cfg.expected b0.getSeqNo b.getSeqNo → syncName cfg b = .ok name →
    ∀ p x, b0.getSeqNo p = some x → x ≠ 0 → (∃ y, b.getSeqNo p = some y ∧ x ≤ y) ∨ Name.appendNumber p x ∈ content

/-- A node with the table `b0` answers the sync Interest of a node with the table `b`. -/
def Answerable (cfg : Cfg) (b0 b : Base) : Prop :=
  ∃ df, Table.diff cfg.fuel b0.iblt b.iblt = .ok df ∧
    ((df.canDecode = true ∧ df.positive ≠ []) ∨
     (df.canDecode = false ∧ b.numOwn ≤ b0.numOwn ∧
      ¬ (b0.numOwn = b.numOwn ∧ df.positive.length = 0 ∧ df.negative.length > 0)))

/-- A reply that was complete when it was made, with a table between `b1` and `b2`. -/
def GoodReply (cfg : Cfg) (b1 b2 : Base) (e : Name × Bytes × Nat) : Prop :=
  ∃ b0 content, Steps (fun _ => False) b1 b0 ∧ Steps (fun _ => False) b0 b2 ∧
    cfg.contentCodec.compress (encodeNames content) = some e.2.1 ∧ (∀ n ∈ content, IsLive b0.getSeqNo n) ∧
    CompleteFor cfg b0 e.1 content ∧ e.1.length = cfg.syncPrefix.length + 2 ∧
    ∀ b, Steps (fun _ => True) (Base.new cfg) b → syncName cfg b = .ok e.1 → Answerable cfg b0 b

/-- Between two states the table only grows and only complete replies are made. -/
structure Answers (cfg : Cfg) (s s' : Full) : Prop where
  steps : Steps (fun _ => False) s.base s'.base
  replies : ∃ ext, s'.replies = s.replies ++ ext ∧ ∀ e ∈ ext, GoodReply cfg s.base s'.base e

theorem Answers.refl {cfg : Cfg} {s s' : Full} (h : s'.base = s.base) (h' : s'.replies = s.replies) : Answers cfg s s' :=
  ⟨Steps.of_eq h, [], by simp [h'], by simp⟩

theorem GoodReply.mono {cfg : Cfg} {b1 b2 b1' b2' : Base} {e : Name × Bytes × Nat} (h : GoodReply cfg b1 b2 e)
    (h1 : Steps (fun _ => False) b1' b1) (h2 : Steps (fun _ => False) b2 b2') : GoodReply cfg b1' b2' e := by
  obtain ⟨b0, c, h3, h4, h5⟩ := h
  exact ⟨b0, c, h1.trans h3, h4.trans h2, h5⟩

theorem Answers.trans {cfg : Cfg} {s s1 s2 : Full} (h : Answers cfg s s1) (h' : Answers cfg s1 s2) : Answers cfg s s2 := by
  obtain ⟨a1, e1, a2, a3⟩ := h
  obtain ⟨b1, e2, b2, b3⟩ := h'
  refine ⟨a1.trans b1, e1 ++ e2, by rw [b2, a2, List.append_assoc], ?_⟩
  intro e he
  rcases List.mem_append.mp he with he | he
  · exact (a3 e he).mono Steps.refl b1
  · exact (b3 e he).mono a1 Steps.refl

theorem onUndecodable_replies {cfg : Cfg} {s s' : Full} {i : Interest} {t : Bool} {n : Nat} {d : IBLTDiff}
    (h : onUndecodable cfg s i t n d = .ok s') :
    s'.replies = s.replies ∨ (Replied cfg s s' i.name (allContent s.base) 10 ∧ n ≤ s.base.numOwn ∧
      ¬ (s.base.numOwn = n ∧ d.positive.length = 0 ∧ d.negative.length > 0)) := by
  unfold onUndecodable at h
  split at h
  · left
    have hw := waitOrGiveUp_view cfg s i t
    generalize waitOrGiveUp cfg s i t = x at h hw
    obtain ⟨s1, g⟩ := x
    simp only [view, View.mk.injEq] at hw
    cases g
    · simp only [Res.ok.injEq] at h; subst h; exact hw.2.2.2.1
    · simp only at h
      exact (sendSyncInterest_replies h).trans hw.2.2.2.1
  · rename_i hle
    split at h
    · cases h; exact Or.inl rfl
    · rename_i hodd
      simp only at h
      split at h
      · cases h
        left
        have := markWaiting_view s i.name
        simp only [view, View.mk.injEq] at this
        exact this.2.2.2.1
      · simp only [Res.bind_eq_ok, Res.ok.injEq] at h
        obtain ⟨s1, h1, rfl⟩ := h
        right
        refine ⟨?_, by omega, hodd⟩
        obtain ⟨buf, r, is, h2, h3, h4, h5, h6⟩ := sendSyncData_replied h1
        have := markWaiting_view (s1.deletePending i.name) i.name
        simp only [view, View.mk.injEq] at this
        exact ⟨⟨buf, r, is, h2, h3, this.2.1.trans h4, this.2.2.1.trans h5, h6.1, this.2.2.2.1.trans h6.2⟩⟩

theorem onDecoded_replies {cfg : Cfg} {s s' : Full} (hs : s.base.Inv) {i : Interest} {t : Bool} {ib : Table} {d : IBLTDiff}
    (h : onDecoded cfg s i t ib d = .ok s') :
    s'.replies = s.replies ∨
     ∃ content, Replied cfg s s' i.name content cfg.freshness ∧ content ≠ [] ∧ IsContentOf s.base d content := by
  rcases (onDecoded_reply hs h).2 with _ | h2
  swap
  · exact Or.inr h2
  unfold onDecoded at h
  split at h
  · left
    simp only [Res.ok.injEq] at h
    subst h
    split
    · have := markWaiting_view { s with pending := s.pending.set i.name { (s.pending.find i.name).getD ⟨ib, 0⟩ with deadline := s.now + i.lifetime } } i.name
      simp only [view, View.mk.injEq] at this
      exact this.2.2.2.1
    · rfl
  · split at h
    · left
      simp only [Res.ok.injEq] at h
      subst h
      have := waitOrGiveUp_view cfg s i t
      simp only [view, View.mk.injEq] at this
      exact this.2.2.2.1
    · obtain ⟨l, h1, h2⟩ := collect_eq hs d.negative d.positive []
      rw [h1] at h
      simp only [List.nil_append] at h
      split at h
      · cases h; exact Or.inl rfl
      · rename_i hne
        simp only [Res.bind_eq_ok, Res.ok.injEq] at h
        obtain ⟨s1, h3, rfl⟩ := h
        obtain ⟨buf, r, is, h4, h5, h6, h7, h8⟩ := sendSyncData_replied (s := s) h3
        have := markWaiting_view s1 i.name
        simp only [view, View.mk.injEq] at this
        exact Or.inr ⟨l, ⟨buf, r, is, h4, h5, this.2.1.trans h6, this.2.2.1.trans h7, h8.1, this.2.2.2.1.trans h8.2⟩, by simpa using hne, h2⟩

theorem onSyncInterest_answers {cfg : Cfg} (hwf : cfg.WF) (he : 0 < cfg.expected) {s s' : Full}
    (hs : Steps (fun _ => True) (Base.new cfg) s.base) {i : Interest} {t : Bool} (h : onSyncInterest cfg s i t = .ok s') :
    Answers cfg s s' := by
  have hsi := hs.inv (Base.inv_new cfg)
  have hbase := onSyncInterest_base hsi h
  rcases onSyncInterest_cases h with ⟨d, hd, rfl⟩ | ⟨hst, ⟨d, _, hd, rfl⟩ | rfl | ⟨c2, c1, num, ib, df, e1, e2, e3, e4, e5, e6, h1⟩⟩
  · exact .refl rfl rfl
  · exact .refl rfl rfl
  · exact .refl rfl rfl
  · -- the table in the Interest
    have tab : ∀ b, Steps (fun _ => True) (Base.new cfg) b → syncName cfg b = .ok i.name → ib = b.iblt := by
      intro b hb hn
      obtain ⟨c, e7, e8, _⟩ := honest_name (hb.ranged he (Base.ranged_new cfg)) hwf.iblt_lossless (hb.inv (Base.inv_new cfg)).ownLt
      rw [hn, Res.ok.injEq] at e7
      rw [e7, getFromEnd_two, Res.ok.injEq] at e2
      subst e2
      rw [e8, Res.ok.injEq] at e5
      exact e5.symm
    have own : ∀ b, Steps (fun _ => True) (Base.new cfg) b → syncName cfg b = .ok i.name → num = b.numOwn := by
      intro b hb hn
      obtain ⟨c, e7, _, e9⟩ := honest_name (hb.ranged he (Base.ranged_new cfg)) hwf.iblt_lossless (hb.inv (Base.inv_new cfg)).ownLt
      rw [hn, Res.ok.injEq] at e7
      rw [e7, getFromEnd_last, Res.ok.injEq] at e3
      subst e3
      rw [e9, Res.ok.injEq] at e4
      exact e4.symm
    have new : ∀ content fr, Replied cfg s s' i.name content fr → (∀ n ∈ content, IsLive s.base.getSeqNo n) →
        CompleteFor cfg s.base i.name content →
        ((df.canDecode = true ∧ df.positive ≠ []) ∨
          (df.canDecode = false ∧ num ≤ s.base.numOwn ∧
            ¬ (s.base.numOwn = num ∧ df.positive.length = 0 ∧ df.negative.length > 0))) → Answers cfg s s' := by
      rintro content fr ⟨buf, r, is, h2, _, _, _, _, h3⟩ hl hc hq
      refine ⟨Steps.of_eq hbase, _, h3, ?_⟩
      intro e hm
      rw [List.mem_singleton.mp hm]
      exact ⟨s.base, content, Steps.refl, Steps.of_eq hbase, h2, hl, hc, by rw [List.length_drop] at e1; simp only; omega,
        fun b hb hn => ⟨df, by rw [← tab b hb hn]; exact e6, by rw [← own b hb hn]; exact hq⟩⟩
    rcases h1 with ⟨hdec, h1⟩ | ⟨hdec, h1⟩
    · rcases onUndecodable_replies h1 with h2 | h2
      · exact .refl hbase h2
      · refine new _ _ h2.1 (fun n hn => (allContent_live hsi).mp hn) ?_ (Or.inr ⟨hdec, h2.2⟩)
        intro b _ _ _ _ _ p x hp hx
        exact Or.inr ((allContent_live hsi).mpr ⟨p, x, hp, hx, rfl⟩)
    · rcases onDecoded_replies hsi h1 with h2 | ⟨content, h2, hne, h3⟩
      · exact .refl hbase h2
      · refine new _ _ h2 (fun n hn => ?_) ?_ (Or.inl ⟨hdec, ?_⟩)
        · obtain ⟨_, _, p, x, _, hp, hx, rfl, _⟩ := (h3 n).mp hn
          exact ⟨p, x, hp, hx, rfl⟩
        · intro b hb hc hc' hnc hn p x hp hx
          rw [tab b hb hn] at e6
          exact content_complete he hsi (hb.inv (Base.inv_new cfg)) (hs.exact (Base.inv_new cfg) hc (Base.exact_new cfg))
            (hb.exact (Base.inv_new cfg) hc' (Base.exact_new cfg)) hnc e6 hdec h3 hp hx
        · obtain ⟨n, hn⟩ := List.exists_mem_of_ne_nil _ hne
          obtain ⟨k, hk, _⟩ := (h3 n).mp hn
          exact List.ne_nil_of_mem hk

theorem processOne_answers {cfg : Cfg} (hwf : cfg.WF) (he : 0 < cfg.expected) {s s' : Full}
    (hs : Steps (fun _ => True) (Base.new cfg) s.base) {n : Name} (h : processOne cfg s n = .ok s') : Answers cfg s s' := by
  unfold processOne at h
  cases hw : s.waiting.find n with
  | none => simp only [hw, Res.ok.injEq] at h; subst h; exact .refl rfl rfl
  | some w =>
    simp only [hw] at h
    split at h
    · cases h; exact .refl rfl rfl
    · simp only [Res.bind_eq_ok] at h
      obtain ⟨s1, h1, h2⟩ := h
      have h3 := onSyncInterest_answers (s := { s with waiting := s.waiting.set n { w with numTries := w.numTries + 1 } }) hwf he hs h1
      have h3' : Answers cfg s s1 := ⟨h3.steps, h3.replies⟩
      cases hw2 : s1.waiting.find n with
      | none => simp only [hw2, Res.ok.injEq] at h2; subst h2; exact h3'
      | some w2 =>
        simp only [hw2] at h2
        split at h2
        · cases h2; exact ⟨h3.steps, h3.replies⟩
        · cases h2; exact h3'

theorem processWaiting_answers {cfg : Cfg} (hwf : cfg.WF) (he : 0 < cfg.expected) {s s' : Full}
    (hs : Steps (fun _ => True) (Base.new cfg) s.base) (h : processWaiting cfg s = .ok s') : Answers cfg s s' := by
  have := foldRes_rel (Q := fun a b : Full => Steps (fun _ => True) (Base.new cfg) a.base → Answers cfg a b)
    (fun _ _ => .refl rfl rfl)
    (fun _ _ _ h1 h2 hi => (h1 hi).trans (h2 (hi.trans ((h1 hi).steps.mono (fun _ h => h.elim))))) _
    (fun a x b _ hx hi => processOne_answers hwf he hi hx) h
  exact this hs

theorem call_answers {cfg : Cfg} {s s' : Full} {c : Call} (hr : ∀ p, ¬ c.Removes p) (hp : ∀ p, ¬ c.Publishes p)
    (h : call cfg s c = .ok s') : Answers cfg s s' := by
  cases c with
  | addUserNode p =>
    simp only [call, Res.ok.injEq] at h
    subst h
    exact ⟨Relation.ReflTransGen.single (.add p), [], by simp, by simp⟩
  | removeUserNode p => exact absurd rfl (hr p)
  | publishName p q => exact absurd rfl (hp p)

/-- An event without removals and publications only makes complete replies. -/
theorem step_answers {cfg : Cfg} (hwf : cfg.WF) (he : 0 < cfg.expected) {s s' : Full}
    (hs : Steps (fun _ => True) (Base.new cfg) s.base) {op : Op} (hr : ∀ p, ¬ op.Removes p) (hp : ∀ p, ¬ op.Publishes p)
    (h : step cfg s op = .ok s') : Answers cfg s s' := by
  have snd : ∀ {s s' : Full}, sendSyncInterest cfg s = .ok s' → Answers cfg s s' :=
    fun h => .refl (sendSyncInterest_core h).base (sendSyncInterest_replies h)
  cases op with
  | call c => exact call_answers hr hp h
  | recvInterest i =>
    simp only [step] at h
    split at h
    · exact onSyncInterest_answers hwf he hs h
    · cases h; exact .refl rfl rfl
  | segment f =>
    simp only [step] at h
    split at h
    · cases h; split <;> exact .refl rfl rfl
    · cases h; exact .refl rfl rfl
  | complete buf acts =>
    simp only [step] at h
    split at h
    · split at h
      · rcases onSyncData_cases (s := s.stopFetcher) (hs.inv (Base.inv_new cfg)) h with ⟨_, rfl⟩ | ⟨ns, r, _, h2, _, h3⟩
        · exact .refl rfl rfl
        · rcases h3 with ⟨_, hb, rfl⟩ | ⟨_, s1, h6, _, hb, h7⟩
          · exact .refl rfl rfl
          · obtain ⟨us, hu, hm, _⟩ := merge_rel _ h2
            have a1 : ∀ n, Answers cfg s ((({ s.stopFetcher.deletePending n with base := r.2 } : Full)).emit (.update r.1)) :=
              fun n => ⟨hm.steps, [], by simp [stopFetcher, deletePending, emit], by simp⟩
            have a2 := foldRes_rel (Q := fun a b : Full => Answers cfg a b)
              (fun _ => .refl rfl rfl) (fun _ _ _ h1 h2 => h1.trans h2) _
              (fun a c b hc hx => call_answers (fun p hq => hr p ⟨c, hc, hq⟩) (fun p hq => hp p ⟨c, hc, hq⟩) hx) h6
            have a12 := (a1 _).trans a2
            have a3 := processWaiting_answers hwf he (s := { s1 with
              sched := some (s1.now + cfg.jitter s1.draws, .renew), draws := s1.draws + 1, waitOut := false })
              (hs.trans (a12.steps.mono (fun _ h => h.elim))) h7
            exact a12.trans ⟨a3.steps, a3.replies⟩
      · cases h; exact .refl rfl rfl
    · cases h; exact .refl rfl rfl
  | error t =>
    simp only [step] at h
    split at h
    · split at h
      · cases h; split <;> exact .refl rfl rfl
      · cases h; exact .refl rfl rfl
    · cases h; exact .refl rfl rfl
  | tick t =>
    simp only [step, Res.ok.injEq] at h
    subst h
    split <;> exact .refl rfl rfl
  | fireSync =>
    simp only [step] at h
    split at h
    · split at h
      · split at h
        · have := snd (s := { s with sched := none }) h; exact ⟨this.steps, this.replies⟩
        · have := snd (s := { s with sched := none, waitOut := false }) h; exact ⟨this.steps, this.replies⟩
      · cases h; exact .refl rfl rfl
    · cases h; exact .refl rfl rfl
  | fireDelay =>
    simp only [step] at h
    split at h
    · split at h
      · simp only [Res.bind_eq_ok, Res.ok.injEq] at h
        obtain ⟨s1, h1, rfl⟩ := h
        have h2 := processWaiting_answers hwf he (s := { s with delayTimer := none }) hs h1
        have h3 := scheduleProcess_view cfg s1
        simp only [view, View.mk.injEq] at h3
        exact (Answers.trans ⟨h2.steps, h2.replies⟩ (.refl h3.1 h3.2.2.2.1))
      · cases h; exact .refl rfl rfl
    · cases h; exact .refl rfl rfl
  | expire n =>
    simp only [step] at h
    split at h
    · cases h; split <;> exact .refl rfl rfl
    · cases h; exact .refl rfl rfl
  | fireStore =>
    simp only [step, Res.ok.injEq] at h
    subst h
    exact .refl rfl rfl

end Full

/-- A packet in the store was there before, or belongs to a reply made since. -/
theorem Micro.since {ρ : Rules} {v0 v v' : View} (h : Micro ρ v v') (h0 : v0.replies <+: v.replies)
    (hr : ∀ d ∈ v.pub.store, d ∈ v0.pub.store ∨ ∃ (k : Nat) (e : Name × Bytes × Nat), v0.replies.length ≤ k ∧
      v.replies[k]? = some e ∧ d ∈ segmentData (e.1.appendVersion (ρ.version k)) e.2.1 e.2.2) :
    ∀ d ∈ v'.pub.store, d ∈ v0.pub.store ∨ ∃ (k : Nat) (e : Name × Bytes × Nat), v0.replies.length ≤ k ∧
      v'.replies[k]? = some e ∧ d ∈ segmentData (e.1.appendVersion (ρ.version k)) e.2.1 e.2.2 := by
  cases h with
  | data now iname dname buf fr r hd h =>
    intro d hd'
    simp only [(publish_ok h).1] at hd'
    rcases storeFold_mem _ hd' with hd' | hd'
    · rcases hr d hd' with h1 | ⟨k, e, h1, h2, h3⟩
      · exact Or.inl h1
      · refine Or.inr ⟨k, e, h1, ?_, h3⟩
        simp only
        rw [List.getElem?_append_left (List.getElem?_eq_some_iff.mp h2).1]
        exact h2
    · exact Or.inr ⟨v.replies.length, (dname, buf, fr), h0.length_le, by simp, hd'⟩
  | fire t => intro d hd; exact hr d (fire_mem.mp hd).1
  | _ => exact hr

theorem Micros.since {ρ : Rules} {v v' : View} (h : Micros ρ v v') :
    ∀ d ∈ v'.pub.store, d ∈ v.pub.store ∨ ∃ (k : Nat) (e : Name × Bytes × Nat), v.replies.length ≤ k ∧
      v'.replies[k]? = some e ∧ d ∈ segmentData (e.1.appendVersion (ρ.version k)) e.2.1 e.2.2 := by
  induction h with
  | refl => exact fun d hd => Or.inl hd
  | tail h1 h ih => exact h.since (Micros.replies h1) ih

end PSync
