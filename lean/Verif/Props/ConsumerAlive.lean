import Verif.Proofs.PubSubFetch
import Verif.Props.ConsumerWire
/-!
Property C59: a consumer never goes silent.
-/
namespace PSync
open Spec

/-- An Interest is outstanding (its fetch has neither completed nor failed nor been stopped), or a timer runs that will
send one. -/
def Spec.Busy (s : Cons) : Prop := s.helloFetcher = some true ∨ s.syncFetcher = some true ∨ s.timers ≠ []

/-- The application calls sendSyncInterest in every hello callback and never calls stop. -/
structure Spec.KeepsGoing (ops : List Cons.Op) : Prop where
  hello : ∀ buf a1 a2, Cons.Op.helloComplete buf a1 a2 ∈ ops → Cons.Call.sendSync ∈ a1
  noStop : ∀ op ∈ ops, Cons.Call.stop ∉ callsIn op

/-- A sync fetch completes only after a packet with a FinalBlockId has arrived for the last sync Interest. -/
def Spec.FinalFirst (cfg : CCfg) (s0 : Cons) (ops : List Cons.Op) : Prop :=
  ∀ pre buf acts post, ops = pre ++ .syncComplete buf acts :: post →
    ∃ pre1 d mid s1 s2, pre = pre1 ++ .syncSegment d :: mid ∧ d.finalBlock.isSome ∧
      Cons.run cfg s0 (pre1 ++ [.syncSegment d]) = .ok s1 ∧ Cons.run cfg s0 pre = .ok s2 ∧
      askedUnder (cfg.syncPrefix ++ [SYNC]) s1.log = askedUnder (cfg.syncPrefix ++ [SYNC]) s2.log

namespace Cons

/-- A hello Interest is outstanding or a timer runs. -/
def Wake (s : Cons) : Prop := s.helloFetcher = some true ∨ s.timers ≠ []

theorem sendSync_keeps {cfg : CCfg} {s s' : Cons} (h : s.sendSyncInterest cfg = .ok s') :
    s'.helloFetcher = s.helloFetcher ∧ s'.timers = s.timers ∧ s'.syncFetcher = some true ∧
    s'.contentType = s.contentType ∧
    askedUnder (cfg.syncPrefix ++ [SYNC]) s'.log ≠ askedUnder (cfg.syncPrefix ++ [SYNC]) s.log := by
  obtain ⟨_, cs, _, rfl⟩ := sendSyncInterest_ok h
  refine ⟨rfl, rfl, rfl, rfl, ?_⟩
  simp only
  rw [askedUnder_append, askedUnder_hit (by
    unfold syncPrefixName; rw [List.append_assoc (cfg.syncPrefix ++ [SYNC])]; exact List.prefix_append _ _)]
  simp

/-- A call that is not stop. -/
theorem call_keeps {cfg : CCfg} {s s' : Cons} {c : Call} (hc : c ≠ .stop) (h : call cfg s c = .ok s') :
    (Wake s → Wake s') ∧ (s.syncFetcher = some true → s'.syncFetcher = some true) ∧
    (c = .sendSync → s'.syncFetcher = some true ∧
      askedUnder (cfg.syncPrefix ++ [SYNC]) s'.log ≠ askedUnder (cfg.syncPrefix ++ [SYNC]) s.log) := by
  cases c with
  | addSubscription p q cb =>
    simp only [call, Res.bind_eq_ok, Res.ok.injEq] at h
    obtain ⟨⟨r, t⟩, h1, rfl⟩ := h
    unfold addSubscription at h1
    split at h1
    · simp only [Res.ok.injEq, Prod.mk.injEq] at h1; obtain ⟨_, rfl⟩ := h1; exact ⟨id, id, fun h => by cases h⟩
    · simp only [Res.bind_eq_ok, Res.ok.injEq, Prod.mk.injEq] at h1
      obtain ⟨bf, _, _, rfl⟩ := h1
      split <;> exact ⟨id, id, fun h => by cases h⟩
  | removeSubscription p =>
    simp only [call, Res.bind_eq_ok, Res.ok.injEq] at h
    obtain ⟨⟨r, t⟩, h1, rfl⟩ := h
    rcases removeSubscription_ok h1 with ⟨_, _, rfl⟩ | ⟨_, _, bf, _, rfl⟩
    · exact ⟨id, id, fun h => by cases h⟩
    · exact ⟨id, id, fun h => by cases h⟩
  | sendHello =>
    simp only [call, Res.ok.injEq] at h
    subst h
    exact ⟨fun _ => .inl rfl, id, fun h => by cases h⟩
  | sendSync =>
    obtain ⟨h1, h2, h3, _, h5⟩ := sendSync_keeps (show s.sendSyncInterest cfg = .ok s' from h)
    exact ⟨fun h => by unfold Wake at h ⊢; rw [h1, h2]; exact h, fun _ => h3, fun _ => ⟨h3, h5⟩⟩
  | stop => exact absurd rfl hc

theorem calls_keep {cfg : CCfg} {cs : List Call} : ∀ {s s' : Cons}, .stop ∉ cs → foldRes (call cfg) s cs = .ok s' →
    (Wake s → Wake s') ∧ (s.syncFetcher = some true → s'.syncFetcher = some true) ∧
    (.sendSync ∈ cs → s'.syncFetcher = some true ∧
      askedUnder (cfg.syncPrefix ++ [SYNC]) s'.log ≠ askedUnder (cfg.syncPrefix ++ [SYNC]) s.log) := by
  induction cs with
  | nil => intro s s' _ h; simp only [foldRes, Res.ok.injEq] at h; subst h; exact ⟨id, id, fun h => by simp at h⟩
  | cons c cs ih =>
    intro s s' hns h
    simp only [List.mem_cons, not_or] at hns
    simp only [foldRes, Res.bind_eq_ok] at h
    obtain ⟨t, h1, h2⟩ := h
    obtain ⟨a1, a2, a3⟩ := call_keeps (fun h => hns.1 h.symm) h1
    obtain ⟨b1, b2, b3⟩ := ih hns.2 h2
    have g1 : ∃ e, askedUnder (cfg.syncPrefix ++ [SYNC]) t.log = askedUnder (cfg.syncPrefix ++ [SYNC]) s.log ++ e := by
      obtain ⟨ext, e, _⟩ := (went_call h1).sync; exact ⟨ext, e⟩
    have g2 : ∃ e, askedUnder (cfg.syncPrefix ++ [SYNC]) s'.log = askedUnder (cfg.syncPrefix ++ [SYNC]) t.log ++ e := by
      obtain ⟨ext, e, _⟩ := (went_calls h2).sync; exact ⟨ext, e⟩
    refine ⟨b1 ∘ a1, b2 ∘ a2, fun hm => ?_⟩
    have ne : (askedUnder (cfg.syncPrefix ++ [SYNC]) t.log ≠ askedUnder (cfg.syncPrefix ++ [SYNC]) s.log ∨
        askedUnder (cfg.syncPrefix ++ [SYNC]) s'.log ≠ askedUnder (cfg.syncPrefix ++ [SYNC]) t.log) →
        askedUnder (cfg.syncPrefix ++ [SYNC]) s'.log ≠ askedUnder (cfg.syncPrefix ++ [SYNC]) s.log := by
      obtain ⟨e1, g1⟩ := g1
      obtain ⟨e2, g2⟩ := g2
      rw [g2, g1]
      intro h hh
      have : e1 ++ e2 = [] := by rw [List.append_assoc] at hh; exact List.append_right_eq_self.mp hh
      simp only [List.append_eq_nil_iff] at this
      rw [this.1, this.2] at h
      simp at h
    rcases List.mem_cons.mp hm with hm | hm
    · exact ⟨b2 (a3 hm.symm).1, ne (.inl (a3 hm.symm).2)⟩
    · exact ⟨(b3 hm).1, ne (.inr (b3 hm).2)⟩

/-- The hello callback sends a sync Interest. -/
theorem onHelloData_sends {cfg : CCfg} {s s' : Cons} {buf : Bytes} {a1 a2 : List Call} (h1 : .sendSync ∈ a1) (h2 : .stop ∉ a1 ++ a2)
    (h : onHelloData cfg s buf a1 a2 = .ok s') : s'.syncFetcher = some true ∧
      askedUnder (cfg.syncPrefix ++ [SYNC]) s'.log ≠ askedUnder (cfg.syncPrefix ++ [SYNC]) s.log := by
  simp only [List.mem_append, not_or] at h2
  unfold onHelloData at h
  simp only [Res.bind_eq_ok] at h
  obtain ⟨st, _, r, _, t, h3, h4⟩ := h
  obtain ⟨_, _, b3⟩ := calls_keep h2.1 h3
  obtain ⟨c1, c2⟩ := b3 h1
  have e0 : ∀ (x : Cons) (m : NMap Nat), askedUnder (cfg.syncPrefix ++ [SYNC]) (x.emit (.hello m)).log =
      askedUnder (cfg.syncPrefix ++ [SYNC]) x.log := by
    intro x m
    unfold emit
    simp [askedUnder]
  rw [e0] at c2
  split at h4
  · simp only [Res.ok.injEq] at h4
    subst h4
    exact ⟨c1, c2⟩
  · obtain ⟨_, d2, _⟩ := calls_keep h2.2 h4
    refine ⟨d2 c1, ?_⟩
    obtain ⟨ext, e, _⟩ := ((went_update cfg t r.2.1).trans (went_calls h4)).sync
    obtain ⟨ext', e', _⟩ := ((went_hello cfg { s with iblt := s.helloDataName.drop (s.helloDataName.length - 1), prefixes := r.1 } r.2.2).trans (went_calls h3)).sync
    simp only at e'
    simp only [e'] at c2
    rw [e, e']
    intro hh
    rw [List.append_assoc] at hh
    have := List.append_right_eq_self.mp hh
    simp only [List.append_eq_nil_iff] at this
    rw [this.1] at c2
    simp at c2

/-- A packet of the running sync fetch: a nack makes the consumer say hello. -/
theorem syncSegment_says {cfg : CCfg} {s s' : Cons} {d : Data} (hf : s.syncFetcher = some true)
    (h : step cfg s (.syncSegment d) = .ok s') :
    s'.syncFetcher = some true ∧ (s'.contentType = .nack → s'.helloFetcher = some true) := by
  simp only [step, if_pos hf, Res.ok.injEq] at h
  generalize hx : (if d.finalBlock.isSome = true then { s with syncDataName := Name.dropLast d.name 2, contentType := d.contentType }
    else s) = x at h
  have hxf : x.syncFetcher = some true := by rw [← hx]; split <;> exact hf
  subst h
  split
  · exact ⟨hxf, fun _ => rfl⟩
  · rename_i hn; exact ⟨hxf, fun h => absurd h hn⟩

/-- In the window of one sync fetch: if a nack was seen, a hello is under way. -/
theorem step_wake {cfg : CCfg} {s s' : Cons} {op : Op} (hk : KeepsGoing [op]) (h : step cfg s op = .ok s')
    (hs : s.contentType = .nack → Wake s)
    (hsame : askedUnder (cfg.syncPrefix ++ [SYNC]) s'.log = askedUnder (cfg.syncPrefix ++ [SYNC]) s.log) :
    s'.contentType = .nack → Wake s' := by
  cases op with
  | call c =>
    have := hk.noStop (.call c) (by simp)
    simp only [callsIn, List.mem_singleton] at this
    intro hn
    refine (call_keeps (fun e => this e.symm) h).1 (hs ?_)
    rw [← (went_call (show call cfg s c = .ok s' from h)).kind]; exact hn
  | helloSegment d =>
    simp only [step] at h
    split at h
    · cases h; split <;> exact hs
    · cases h; exact hs
  | helloComplete buf a1 a2 =>
    simp only [step] at h
    split at h
    · exact absurd hsame (onHelloData_sends (s := { s with helloFetcher := some false }) (hk.hello buf a1 a2 (by simp))
        (hk.noStop _ List.mem_cons_self) h).2
    · cases h; exact hs
  | helloError =>
    simp only [step] at h
    split at h
    · cases h; exact fun _ => .inr (by simp)
    · cases h; exact hs
  | syncSegment d =>
    by_cases hf : s.syncFetcher = some true
    · exact fun hn => .inl ((syncSegment_says hf h).2 hn)
    · simp only [step, if_neg hf, Res.ok.injEq] at h
      subst h; exact hs
  | syncComplete buf a =>
    simp only [step] at h
    split at h
    · split at h
      · cases h; intro hn; cases hn
      · rename_i hn
        obtain ⟨st, r, _, _, hw⟩ := onSyncData_went h
        intro hn'
        exact absurd (hw.kind.symm.trans hn') hn
    · cases h; exact hs
  | syncError t =>
    simp only [step] at h
    split at h
    · split at h
      · exact absurd hsame (sendSync_keeps h).2.2.2.2
      · cases h; exact fun _ => .inr (by simp)
    · cases h; exact hs
  | tick t =>
    simp only [step, Res.ok.injEq] at h
    subst h
    split <;> exact hs
  | fire =>
    simp only [step] at h
    split at h
    · cases h; exact hs
    · cases h; exact fun _ => .inl rfl
    · exact absurd hsame (sendSync_keeps h).2.2.2.2

theorem run_wake {cfg : CCfg} (ops : List Op) : ∀ {s s' : Cons}, KeepsGoing ops → run cfg s ops = .ok s' →
    (s.contentType = .nack → Wake s) →
    askedUnder (cfg.syncPrefix ++ [SYNC]) s.log = askedUnder (cfg.syncPrefix ++ [SYNC]) s'.log →
    (s'.syncFetcher = some true → s.syncFetcher = some true) ∧ (s'.contentType = .nack → Wake s') := by
  induction ops with
  | nil => intro s s' _ h hs _; simp only [run, foldRes, Res.ok.injEq] at h; subst h; exact ⟨id, hs⟩
  | cons op ops ih =>
    intro s s' hk h hs hsame
    simp only [run, foldRes, Res.bind_eq_ok] at h
    obtain ⟨t, h1, h2⟩ := h
    have p1 := step_asked h1 (cfg.syncPrefix ++ [SYNC])
    have p2 : askedUnder (cfg.syncPrefix ++ [SYNC]) t.log <+: askedUnder (cfg.syncPrefix ++ [SYNC]) s'.log :=
      foldRes_rel (Q := fun a b : Cons => askedUnder (cfg.syncPrefix ++ [SYNC]) a.log <+: askedUnder (cfg.syncPrefix ++ [SYNC]) b.log)
        (fun _ => List.prefix_refl _) (fun _ _ _ => List.IsPrefix.trans) _ (fun _ _ _ _ h => step_asked h _) h2
    have e1 : askedUnder (cfg.syncPrefix ++ [SYNC]) t.log = askedUnder (cfg.syncPrefix ++ [SYNC]) s.log := by
      refine (p1.eq_of_length_le ?_).symm
      have := p2.length_le
      rw [← hsame] at this
      exact this
    obtain ⟨i1, i2⟩ := ih ⟨fun b a1 a2 hm => hk.hello b a1 a2 (List.mem_cons_of_mem _ hm), fun o ho => hk.noStop o (List.mem_cons_of_mem _ ho)⟩
      h2 (step_wake ⟨fun b a1 a2 hm => hk.hello b a1 a2 (by simp at hm; simp [hm]), fun o ho => hk.noStop o (by simp at ho; simp [ho])⟩ h1 hs e1)
      (e1.trans hsame)
    exact ⟨fun hf => (sync_window h1 (i1 hf) e1).1, i2⟩

theorem step_busy {cfg : CCfg} {s s' : Cons} {op : Op} (hk : KeepsGoing [op]) (h : step cfg s op = .ok s') (hb : Busy s)
    (hc : ∀ buf acts, op = .syncComplete buf acts → s.syncFetcher = some true → s.contentType = .nack → Wake s) : Busy s' := by
  have wake : Wake s' → Busy s' := fun h => h.elim .inl (fun h => .inr (.inr h))
  cases op with
  | call c =>
    have := hk.noStop (.call c) (by simp)
    simp only [callsIn, List.mem_singleton] at this
    obtain ⟨h1, h2, _⟩ := call_keeps (fun e => this e.symm) h
    rcases hb with hb | hb | hb
    · exact wake (h1 (.inl hb))
    · exact .inr (.inl (h2 hb))
    · exact wake (h1 (.inr hb))
  | helloSegment d =>
    simp only [step] at h
    split at h
    · cases h; split <;> exact hb
    · cases h; exact hb
  | helloComplete buf a1 a2 =>
    simp only [step] at h
    split at h
    · exact .inr (.inl (onHelloData_sends (s := { s with helloFetcher := some false }) (hk.hello buf a1 a2 (by simp))
        (hk.noStop _ List.mem_cons_self) h).1)
    · cases h; exact hb
  | helloError =>
    simp only [step] at h
    split at h
    · cases h; exact .inr (.inr (by simp))
    · cases h; exact hb
  | syncSegment d =>
    by_cases hf : s.syncFetcher = some true
    · exact .inr (.inl (syncSegment_says hf h).1)
    · simp only [step, if_neg hf, Res.ok.injEq] at h
      subst h; exact hb
  | syncComplete buf a =>
    simp only [step] at h
    split at h
    · rename_i hf
      split at h
      · rename_i hn
        cases h
        exact wake (show Wake s from hc buf a rfl hf hn)
      · unfold onSyncData at h
        simp only [Res.bind_eq_ok] at h
        obtain ⟨st, _, r, _, t, _, h4⟩ := h
        exact .inr (.inl (sendSync_keeps h4).2.2.1)
    · cases h; exact hb
  | syncError t =>
    simp only [step] at h
    split at h
    · split at h
      · exact .inr (.inl (sendSync_keeps h).2.2.1)
      · cases h; exact .inr (.inr (by simp))
    · cases h; exact hb
  | tick t =>
    simp only [step, Res.ok.injEq] at h
    subst h
    split <;> exact hb
  | fire =>
    simp only [step] at h
    split at h
    · cases h; exact hb
    · cases h; exact .inl rfl
    · exact .inr (.inl (sendSync_keeps h).2.2.1)

end Cons

/-- C59: once the consumer has sent its first hello Interest, it always has an Interest outstanding or a timer running
that will send one, if the application calls sendSyncInterest in every hello callback and never calls stop. -/
theorem c59_never_silent (cfg : CCfg) (s0 s : Cons) (pre ops : List Cons.Op)
    (h : Cons.run cfg s0 (pre ++ .call .sendHello :: ops) = .ok s) (hk : KeepsGoing (pre ++ .call .sendHello :: ops))
    (hf : FinalFirst cfg s0 (pre ++ .call .sendHello :: ops)) : Busy s := by
  induction ops using List.reverseRecOn generalizing s with
  | nil =>
    unfold Cons.run at h
    rw [foldRes_append] at h
    simp only [Res.bind_eq_ok, foldRes, Cons.step, Cons.call, Res.ok.injEq] at h
    obtain ⟨t, _, t', rfl, rfl⟩ := h
    exact .inl rfl
  | append_singleton ops op ih =>
    have e : pre ++ Cons.Op.call .sendHello :: (ops ++ [op]) = (pre ++ .call .sendHello :: ops) ++ [op] := by simp
    rw [e] at h hk hf
    have h' := h
    unfold Cons.run at h'
    rw [foldRes_append] at h'
    simp only [Res.bind_eq_ok, foldRes, Res.ok.injEq] at h'
    obtain ⟨t, h1, s', h2, rfl⟩ := h'
    have hk1 : KeepsGoing (pre ++ .call .sendHello :: ops) :=
      ⟨fun b a1 a2 hm => hk.hello b a1 a2 (List.mem_append_left _ hm), fun o ho => hk.noStop o (List.mem_append_left _ ho)⟩
    refine Cons.step_busy (s := t) (op := op) ⟨fun b a1 a2 hm => hk.hello b a1 a2 (List.mem_append_right _ hm), fun o ho => hk.noStop o (List.mem_append_right _ ho)⟩
      h2 (ih t h1 hk1 ?_) ?_
    · intro p buf acts post he
      exact hf p buf acts (post ++ [op]) (by rw [he]; simp)
    · rintro buf acts rfl hsf hnack
      obtain ⟨pre1, d, mid, s1, s2, e1, hd, r1, r2, hsame⟩ := hf _ buf acts [] rfl
      have e2 : s2 = t := by
        have h1' : Cons.run cfg s0 (pre ++ .call .sendHello :: ops) = .ok t := h1
        rw [h1'] at r2; cases r2; rfl
      subst e2
      have hmid : Cons.run cfg s1 mid = .ok s2 := by
        have := r2
        rw [e1, show pre1 ++ Cons.Op.syncSegment d :: mid = (pre1 ++ [.syncSegment d]) ++ mid by simp] at this
        unfold Cons.run at this r1 ⊢
        rw [foldRes_append, r1] at this
        exact this
      have hkm : KeepsGoing mid := by
        rw [e1] at hk1
        exact ⟨fun b a1 a2 hm => hk1.hello b a1 a2 (by simp [hm]), fun o ho => hk1.noStop o (by simp [ho])⟩
      unfold Cons.run at r1
      rw [foldRes_append] at r1
      simp only [Res.bind_eq_ok, foldRes, Res.ok.injEq] at r1
      obtain ⟨s3, _, s4, r3, rfl⟩ := r1
      by_cases hs4 : s4.contentType = .nack → Cons.Wake s4
      · exact (Cons.run_wake mid hkm hmid hs4 hsame).2 hnack
      · -- the packet was not taken: then no fetch was going on
        exfalso
        push Not at hs4
        obtain ⟨hn4, hw4⟩ := hs4
        have hs4f : s4.syncFetcher = some true := by
          by_contra hne
          have key : ∀ (l : List Cons.Op) (a b : Cons), Cons.run cfg a l = .ok b → b.syncFetcher = some true →
              askedUnder (cfg.syncPrefix ++ [SYNC]) a.log = askedUnder (cfg.syncPrefix ++ [SYNC]) b.log → a.syncFetcher = some true := by
            intro l
            induction l with
            | nil => intro a b hr hb _; simp only [Cons.run, foldRes, Res.ok.injEq] at hr; subst hr; exact hb
            | cons o l ihl =>
              intro a b hr hb hsm
              simp only [Cons.run, foldRes, Res.bind_eq_ok] at hr
              obtain ⟨c, hr1, hr2⟩ := hr
              have p1 := Cons.step_asked hr1 (cfg.syncPrefix ++ [SYNC])
              have p2 : askedUnder (cfg.syncPrefix ++ [SYNC]) c.log <+: askedUnder (cfg.syncPrefix ++ [SYNC]) b.log :=
                foldRes_rel (Q := fun a b : Cons => askedUnder (cfg.syncPrefix ++ [SYNC]) a.log <+: askedUnder (cfg.syncPrefix ++ [SYNC]) b.log)
                  (fun _ => List.prefix_refl _) (fun _ _ _ => List.IsPrefix.trans) _ (fun _ _ _ _ h => Cons.step_asked h _) hr2
              have e3 : askedUnder (cfg.syncPrefix ++ [SYNC]) c.log = askedUnder (cfg.syncPrefix ++ [SYNC]) a.log := by
                refine (p1.eq_of_length_le ?_).symm
                have := p2.length_le
                rw [← hsm] at this
                exact this
              exact (Cons.sync_window hr1 (ihl c b hr2 hb (e3.trans hsm)) e3).1
          exact hne (key mid s4 s2 hmid hsf hsame)
        by_cases hf3 : s3.syncFetcher = some true
        · exact hw4 (.inl ((Cons.syncSegment_says hf3 r3).2 hn4))
        · simp only [Cons.step, if_neg hf3, Res.ok.injEq] at r3
          subst r3
          exact hf3 hs4f

theorem Cons.takeDue_some {now : Nat} : ∀ {ts : List (Nat × CTimer)}, (∃ e ∈ ts, e.1 ≤ now) →
    ∃ k ts', Cons.takeDue now ts = some (k, ts') := by
  intro ts
  induction ts with
  | nil => rintro ⟨e, he, _⟩; simp at he
  | cons a ts ih =>
    rintro ⟨e, he, hd⟩
    obtain ⟨d, k⟩ := a
    by_cases h : d ≤ now
    · exact ⟨k, ts, by simp [Cons.takeDue, h]⟩
    · rcases List.mem_cons.mp he with rfl | he
      · exact absurd hd h
      · obtain ⟨k', ts', h'⟩ := ih ⟨e, he, hd⟩
        exact ⟨k', (d, k) :: ts', by simp [Cons.takeDue, h, h']⟩

/-- C59: a timer that is due sends an Interest, under the hello or the sync prefix. -/
theorem c59_timer_sends (cfg : CCfg) (s s' : Cons) (hd : ∃ e ∈ s.timers, e.1 ≤ s.now)
    (h : Cons.step cfg s .fire = .ok s') : ∃ n lt, s'.log = s.log ++ [.interest n lt] ∧
      (n = cfg.syncPrefix ++ [HELLO] ∨ (cfg.syncPrefix ++ [SYNC]) <+: n) := by
  obtain ⟨k, ts, ht⟩ := Cons.takeDue_some hd
  simp only [Cons.step, ht] at h
  cases k with
  | hello =>
    simp only [Res.ok.injEq] at h
    subst h
    exact ⟨_, _, rfl, .inl rfl⟩
  | sync =>
    obtain ⟨_, cs, _, rfl⟩ := Cons.sendSyncInterest_ok h
    exact ⟨_, _, rfl, .inr (by unfold Cons.syncPrefixName; rw [List.append_assoc (cfg.syncPrefix ++ [SYNC])]; exact List.prefix_append _ _)⟩

/-- A decidable form of `FinalFirst`. -/
def finalFirstB (cfg : CCfg) (s0 : Cons) (ops : List Cons.Op) : Bool :=
  (List.range ops.length).all fun n =>
    match ops[n]? with
    | some (.syncComplete _ _) => (List.range n).any fun m =>
      match ops[m]? with
      | some (.syncSegment d) => d.finalBlock.isSome &&
        (match Cons.run cfg s0 (ops.take (m + 1)), Cons.run cfg s0 (ops.take n) with
          | .ok s1, .ok s2 => decide (askedUnder (cfg.syncPrefix ++ [SYNC]) s1.log = askedUnder (cfg.syncPrefix ++ [SYNC]) s2.log)
          | _, _ => false)
      | _ => false
    | _ => true

theorem finalFirst_of {cfg : CCfg} {s0 : Cons} {ops : List Cons.Op} (h : finalFirstB cfg s0 ops = true) :
    FinalFirst cfg s0 ops := by
  rintro pre buf acts post rfl
  have h1 := List.all_eq_true.mp h pre.length (by simp)
  rw [List.getElem?_append_right (Nat.le_refl _)] at h1
  simp only [Nat.sub_self, List.getElem?_cons_zero, List.any_eq_true, List.mem_range] at h1
  obtain ⟨m, hm, h2⟩ := h1
  split at h2
  · rename_i d hd
    simp only [Bool.and_eq_true] at h2
    obtain ⟨h3, h4⟩ := h2
    rw [List.getElem?_append_left hm] at hd
    obtain ⟨hm', hd'⟩ := List.getElem?_eq_some_iff.mp hd
    split at h4
    · rename_i s1 s2 r1 r2
      refine ⟨pre.take m, d, pre.drop (m + 1), s1, s2, ?_, h3, ?_, ?_, of_decide_eq_true h4⟩
      · conv_lhs => rw [← List.take_append_drop m pre, List.drop_eq_getElem_cons hm', hd']
      · rw [List.take_append_of_le_length (by omega), List.take_add_one, hd] at r1
        exact r1
      · rw [List.take_left'  rfl] at r2
        exact r2
    · cases h4
  · cases h2

/-- The run of the non-vacuity case: hello, sync, nack, the hello it causes fails and is repeated after the jitter. -/
def nackOps : List Cons.Op :=
  [.call (.addSubscription pA 0 false), .call .sendHello,
   .helloSegment (ibfData (nameOf [115] ++ [HELLO]) .blob []), .helloComplete (encodeNames [pA.appendNumber 0]) [.sendSync] [],
   .syncSegment (ibfData (nameOf [115] ++ [SYNC]) .blob []), .syncComplete (encodeNames [pA.appendNumber 1]) [],
   .syncSegment (ibfData (nameOf [115] ++ [SYNC]) .nack []), .syncComplete [] [], .helloError]

set_option synthInstance.maxSize 1024 in
/-- Non-vacuity for C59: after the nack no sync Interest is outstanding, only the timer for the hello Interest runs. -/
example : ∃ s0 s, Cons.init sampleCCfg = .ok s0 ∧ Cons.run sampleCCfg s0 nackOps = .ok s ∧ KeepsGoing nackOps ∧
    FinalFirst sampleCCfg s0 nackOps ∧ s.helloFetcher = some false ∧ s.syncFetcher = some false ∧
    s.timers = [(100, .hello)] := by
  have key : ∃ s0, Cons.init sampleCCfg = .ok s0 ∧ (finalFirstB sampleCCfg s0 nackOps,
      (Cons.run sampleCCfg s0 nackOps).get?.map (fun s => (s.helloFetcher, s.syncFetcher, s.timers))) =
      (true, some (some false, some false, [(100, .hello)])) := Res.of_get? (by decide +kernel)
  obtain ⟨s0, h0, h1⟩ := key
  simp only [Prod.mk.injEq] at h1
  obtain ⟨s, h2, h3⟩ := Res.of_get? h1.2
  simp only [Prod.mk.injEq] at h3
  refine ⟨s0, s, h0, h2, ⟨?_, ?_⟩, finalFirst_of h1.1, h3.1, h3.2.1, h3.2.2⟩
  · intro buf a1 a2 hm
    simp only [nackOps, List.mem_cons, List.not_mem_nil, or_false, Cons.Op.helloComplete.injEq, reduceCtorEq, false_or] at hm
    rw [hm.2.1]; simp
  · decide +kernel

set_option synthInstance.maxSize 1024 in
/-- Non-vacuity for `c59_timer_sends`: 100 ms later the hello Interest is sent again. -/
example : (consRun (nackOps ++ [.tick 100, .fire])).get?.map (fun s => s.log.getLast?)
    = some (some (.interest (nameOf [115] ++ [HELLO]) 1000)) := by decide +kernel

/-- The full claim C59 without the condition on the application: a consumer that has sent a hello Interest and was not
stopped stays busy. -/
def Spec.AlwaysBusy : Prop :=
  ∀ (cfg : CCfg) (s0 s : Cons) (pre ops : List Cons.Op), Cons.init cfg = .ok s0 →
    Cons.run cfg s0 (pre ++ .call .sendHello :: ops) = .ok s → FinalFirst cfg s0 (pre ++ .call .sendHello :: ops) →
    (∀ op ∈ pre ++ .call .sendHello :: ops, Cons.Call.stop ∉ callsIn op) → Busy s

set_option synthInstance.maxSize 1024 in
/-- The condition on the hello callback is needed: after a nack (or a first hello) a consumer whose application does not
call sendSyncInterest in the hello callback is silent for good. -/
theorem c59_needs_callback : ¬ Spec.AlwaysBusy := by
  intro h
  have key : ∃ s0, Cons.init sampleCCfg = .ok s0 ∧ (finalFirstB sampleCCfg s0 ([] ++ .call .sendHello ::
      [.helloSegment (ibfData (nameOf [115] ++ [HELLO]) .blob []), .helloComplete (encodeNames [pA.appendNumber 0]) [] []]),
      (Cons.run sampleCCfg s0 ([] ++ .call .sendHello ::
      [.helloSegment (ibfData (nameOf [115] ++ [HELLO]) .blob []), .helloComplete (encodeNames [pA.appendNumber 0]) [] []])).get?.map
        (fun s => (s.helloFetcher, s.syncFetcher, s.timers))) =
      (true, some (some false, none, [])) := Res.of_get? (by decide +kernel)
  obtain ⟨s0, h0, h1⟩ := key
  simp only [Prod.mk.injEq] at h1
  obtain ⟨s, h2, h3⟩ := Res.of_get? h1.2
  simp only [Prod.mk.injEq] at h3
  have := h sampleCCfg s0 s _ _ h0 h2 (finalFirst_of h1.1) (by decide +kernel)
  unfold Spec.Busy at this
  rw [h3.1, h3.2.1, h3.2.2] at this
  simp at this

end PSync
