import Verif.Proofs.Kept
/-!
The timer of the waiting list.
-/
namespace PSync
open Spec

namespace Full

/-- The timer of the waiting list is left alone, and no entry is added if it is idle; or (not during a retry, `t`) it was
idle and is set to run within 500 ms. -/
def Armed (t : Bool) (s s' : Full) : Prop :=
  s'.now = s.now ∧ ((s'.delayTimer = s.delayTimer ∧
      ((∀ n, s.waiting.find n = none → s'.waiting.find n = none) ∨ (t = false ∧ s.delayTimer.isSome = true))) ∨
    (t = false ∧ s.delayTimer = none ∧ ∃ d, s'.delayTimer = some d ∧ d ≤ s.now + 500))

variable {t : Bool} {cfg : Cfg}

theorem Armed.refl (t : Bool) (s : Full) : Armed t s s := ⟨rfl, .inl ⟨rfl, .inl fun _ h => h⟩⟩

theorem Armed.trans {a b c : Full} (h : Armed t a b) (h' : Armed t b c) : Armed t a c := by
  obtain ⟨n1, h1⟩ := h
  obtain ⟨n2, h2⟩ := h'
  refine ⟨n2.trans n1, ?_⟩
  rcases h1 with ⟨e1, k1⟩ | ⟨ht, e1, d, e2, hd⟩
  · rcases h2 with ⟨e2, k2⟩ | ⟨ht, e2, d, e3, hd⟩
    · refine .inl ⟨e2.trans e1, ?_⟩
      rcases k1 with k1 | k1
      · rcases k2 with k2 | k2
        · exact .inl fun n hn => k2 n (k1 n hn)
        · exact .inr (e1 ▸ k2)
      · exact .inr k1
    · exact .inr ⟨ht, e1 ▸ e2, d, e3, by rw [← n1]; exact hd⟩
  · rcases h2 with ⟨e3, _⟩ | ⟨_, e3, _⟩
    · exact .inr ⟨ht, e1, d, e3.trans e2, hd⟩
    · rw [e2] at e3; cases e3

theorem Armed.same {s s' : Full} (hn : s'.now = s.now) (hd : s'.delayTimer = s.delayTimer) (hw : s'.waiting = s.waiting) : Armed t s s' :=
  ⟨hn, .inl ⟨hd, .inl fun n h => by rw [hw]; exact h⟩⟩

theorem Armed.free {s s' : Full} (h : Armed true s s') : Armed t s s' := by
  obtain ⟨hn, ⟨hd, h | ⟨h, _⟩⟩ | ⟨h, _⟩⟩ := h
  · exact ⟨hn, .inl ⟨hd, .inl h⟩⟩
  · cases h
  · cases h

theorem Core.armed {s s' : Full} (h : Core s s') : Armed t s s' := .same h.now h.delayTimer h.waiting

theorem mark_armed (s : Full) (n : Name) : Armed t s (s.markWaiting n) := by
  unfold markWaiting
  split
  · rename_i w hw
    refine ⟨rfl, .inl ⟨rfl, .inl fun m hm => ?_⟩⟩
    simp only [NMap.find_set]
    rw [if_neg]
    · exact hm
    · rintro rfl
      rw [hw] at hm; cases hm
  · exact .refl _ _

theorem waitOrGiveUp_armed (hwf : cfg.WF) (s : Full) (i : Interest) : Armed t s (waitOrGiveUp cfg s i t).1 := by
  unfold waitOrGiveUp
  split
  · split
    · rename_i hw ht
      have ht : t = false := by simpa using ht
      unfold scheduleProcess
      split
      · rename_i he
        exfalso
        have h0 : s.waiting.set i.name ⟨0, i.nonce⟩ = [] := List.isEmpty_iff.mp he
        have : (s.waiting.set i.name ⟨0, i.nonce⟩).find i.name = none := by
          rw [h0]; rfl
        rw [NMap.find_set, if_pos rfl] at this
        cases this
      · split
        · rename_i hd
          have := hwf.jitter_hi s.draws
          simp only [MAX_JITTER] at this
          exact ⟨rfl, .inr ⟨ht, hd, _, rfl, by simp only; omega⟩⟩
        · rename_i d hd
          exact ⟨rfl, .inl ⟨rfl, .inr ⟨ht, by simp only at hd; rw [hd]; rfl⟩⟩⟩
    · exact .refl _ _
  · split
    · split
      · exact mark_armed _ _
      · exact .refl _ _
    · exact .refl _ _

theorem onUndecodable_armed (hwf : cfg.WF) {s s' : Full} {i : Interest} {n : Nat}
    {d : IBLTDiff} (h : onUndecodable cfg s i t n d = .ok s') : Armed t s s' := by
  unfold onUndecodable at h
  split at h
  · have h1 := waitOrGiveUp_armed (t := t) hwf s i
    split at h
    · rename_i s1 hw
      rw [hw] at h1
      exact h1.trans (sendSyncInterest_core h).armed
    · rename_i s1 hw
      rw [hw] at h1
      cases h
      exact h1
  · split at h
    · cases h; exact .refl _ _
    · simp only at h
      split at h
      · cases h; exact mark_armed _ _
      · simp only [Res.bind_eq_ok, Res.ok.injEq] at h
        obtain ⟨s1, h1, rfl⟩ := h
        have h2 : Armed t s1 (s1.deletePending i.name) := .same rfl rfl rfl
        exact (sendSyncData_core h1).armed.trans (h2.trans (mark_armed _ _))

theorem onDecoded_armed (hwf : cfg.WF) {s s' : Full} {i : Interest} {ib : Table} {d : IBLTDiff}
    (h : onDecoded cfg s i t ib d = .ok s') : Armed t s s' := by
  unfold onDecoded at h
  split at h
  · simp only [Res.ok.injEq] at h
    subst h
    have hp : Armed t s { s with pending := s.pending.set i.name ⟨((s.pending.find i.name).getD ⟨ib, 0⟩).iblt, s.now + i.lifetime⟩ } :=
      .same rfl rfl rfl
    split
    · exact hp.trans (mark_armed _ _)
    · exact hp
  · split at h
    · simp only [Res.ok.injEq] at h
      subst h
      exact waitOrGiveUp_armed hwf _ _
    · generalize collect d.negative s.base d.positive [] = x at h
      obtain ⟨content, b⟩ := x
      simp only at h
      have h0 : Armed t s { s with base := b } := .same rfl rfl rfl
      split at h
      · cases h; exact h0
      · simp only [Res.bind_eq_ok, Res.ok.injEq] at h
        obtain ⟨s1, h2, rfl⟩ := h
        exact h0.trans ((sendSyncData_core h2).armed.trans (mark_armed _ _))

theorem onSyncInterest_armed (hwf : cfg.WF) {s s' : Full} {i : Interest} (h : onSyncInterest cfg s i t = .ok s') : Armed t s s' := by
  rcases onSyncInterest_cases h with ⟨d, _, rfl⟩ | ⟨_, ⟨d, _, _, rfl⟩ | rfl | ⟨c2, c1, num, ib, df, _, _, _, _, _, _, h1⟩⟩
  · exact .same rfl rfl rfl
  · exact .same rfl rfl rfl
  · exact .refl _ _
  · rcases h1 with ⟨_, h1⟩ | ⟨_, h1⟩
    · exact onUndecodable_armed hwf h1
    · exact onDecoded_armed hwf h1

theorem processOne_armed (hwf : cfg.WF) {s s' : Full} {n : Name} (h : processOne cfg s n = .ok s') : Armed true s s' := by
  have herase : ∀ a : Full, Armed true a { a with waiting := a.waiting.erase n } := by
    intro a
    refine ⟨rfl, .inl ⟨rfl, .inl fun m hm => ?_⟩⟩
    simp only [NMap.find_erase]
    split
    · rfl
    · exact hm
  unfold processOne at h
  split at h
  · cases h; exact .refl _ _
  · rename_i w hw
    split at h
    · cases h; exact herase s
    · simp only [Res.bind_eq_ok] at h
      obtain ⟨s1, h1, h2⟩ := h
      have h0 : Armed true s { s with waiting := s.waiting.set n { w with numTries := w.numTries + 1 } } := by
        refine ⟨rfl, .inl ⟨rfl, .inl fun m hm => ?_⟩⟩
        simp only [NMap.find_set]
        rw [if_neg]
        · exact hm
        · rintro rfl
          rw [hw] at hm; cases hm
      have h3 := h0.trans (onSyncInterest_armed hwf h1)
      split at h2
      · cases h2; exact h3
      · split at h2
        · cases h2; exact h3.trans (herase s1)
        · cases h2; exact h3

theorem processWaiting_armed (hwf : cfg.WF) {s s' : Full} (h : processWaiting cfg s = .ok s') : Armed true s s' :=
  foldRes_rel (Q := Armed true) (Armed.refl true) (fun _ _ _ => Armed.trans) _ (fun _ _ _ _ => processOne_armed hwf) h

theorem call_armed {s s' : Full} {c : Call} (h : call cfg s c = .ok s') : Armed t s s' := by
  cases c with
  | addUserNode p =>
    simp only [call, Res.ok.injEq] at h
    subst h
    exact .same rfl rfl rfl
  | removeUserNode p =>
    simp only [call, Res.bind_eq_ok, Res.ok.injEq] at h
    obtain ⟨b, _, rfl⟩ := h
    exact .same rfl rfl rfl
  | publishName p seq =>
    simp only [call, publishName] at h
    split at h
    · cases h; exact .refl _ _
    · simp only [Res.bind_eq_ok] at h
      obtain ⟨b, _, h2⟩ := h
      unfold satisfyPending at h2
      have h3 := foldRes_rel (Q := Armed t) (Armed.refl t) (fun _ _ _ => Armed.trans) _ (by
        intro a e b' _ h3
        unfold satisfyOne at h3
        simp only [Res.bind_eq_ok, Res.ok.injEq] at h3
        obtain ⟨df, _, s1, h4, rfl⟩ := h3
        have h5 : Armed t s1 (s1.deletePending e.1) := .same rfl rfl rfl
        exact (sendSyncData_core h4).armed.trans h5) h2
      refine Armed.trans ?_ h3
      exact .same rfl rfl rfl

/-- One event: the clock runs, the timer of the waiting list runs, or the timer is set if it has to be. -/
theorem step_armed (hwf : cfg.WF) {s s' : Full} {op : Op} (h : step cfg s op = .ok s') :
    (∃ u, op = .tick u ∧ s.timersAfter cfg u = true ∧ s' = { s with now := u }) ∨
    (op = .fireDelay ∧ (∃ d, s.delayTimer = some d ∧ d ≤ s.now) ∧ s'.now = s.now ∧
      ((s'.delayTimer = none ∧ ∀ n, s'.waiting.find n = none) ∨ ∃ d, s'.delayTimer = some d ∧ d ≤ s.now + 500)) ∨
    Armed false s s' := by
  cases op with
  | call c => exact .inr (.inr (call_armed h))
  | recvInterest i =>
    right; right
    simp only [step] at h
    split at h
    · exact onSyncInterest_armed hwf h
    · cases h; exact .refl _ _
  | segment face =>
    right; right
    simp only [step] at h
    split at h
    · simp only [Res.ok.injEq] at h; subst h
      split
      · exact .same rfl rfl rfl
      · exact .refl _ _
    · cases h; exact .refl _ _
  | complete buf acts =>
    right; right
    simp only [step] at h
    split at h
    · rename_i f hf
      split at h
      · unfold onSyncData at h
        have h0 : Armed false s (s.stopFetcher.deletePending f.name) := .same rfl rfl rfl
        split at h
        · cases h; exact h0
        · simp only [Res.bind_eq_ok] at h
          obtain ⟨r, _, h⟩ := h
          split at h
          · cases h
            exact h0.trans (.same rfl rfl rfl)
          · simp only [Res.bind_eq_ok] at h
            obtain ⟨s2, h1, h2⟩ := h
            have h3 := foldRes_rel (Q := Armed false) (Armed.refl false) (fun _ _ _ => Armed.trans) _ (fun _ _ _ _ => call_armed) h1
            have h4 : Armed false s s2 := by
              refine h0.trans (Armed.trans ?_ h3)
              exact .same rfl rfl rfl
            have h5 : Armed false s2 { s2 with sched := some (s2.now + cfg.jitter s2.draws, .renew), draws := s2.draws + 1, waitOut := false } :=
              .same rfl rfl rfl
            exact h4.trans (h5.trans (processWaiting_armed hwf h2).free)
      · cases h; exact .refl _ _
    · cases h; exact .refl _ _
  | error t =>
    right; right
    simp only [step] at h
    split at h
    · split at h
      · simp only [Res.ok.injEq] at h; subst h
        split <;> exact .same rfl rfl rfl
      · cases h; exact .refl _ _
    · cases h; exact .refl _ _
  | tick u =>
    simp only [step, Res.ok.injEq] at h
    subst h
    split
    · rename_i hu
      simp only [Bool.and_eq_true, decide_eq_true_eq] at hu
      exact .inl ⟨u, rfl, hu.2, rfl⟩
    · exact .inr (.inr (.refl _ _))
  | fireSync =>
    right; right
    simp only [step] at h
    split at h
    · split at h
      · have h0 : Armed false s { s with sched := none } := .same rfl rfl rfl
        split at h
        · exact h0.trans (sendSyncInterest_core h).armed
        · have h1 : Armed false s { s with sched := none, waitOut := false } := .same rfl rfl rfl
          exact h1.trans (sendSyncInterest_core h).armed
      · cases h; exact .refl _ _
    · cases h; exact .refl _ _
  | fireDelay =>
    right
    simp only [step] at h
    split at h
    · rename_i d hd
      split at h
      · rename_i hle
        left
        simp only [Res.bind_eq_ok, Res.ok.injEq] at h
        obtain ⟨s1, h1, rfl⟩ := h
        obtain ⟨hn, ⟨hd', _⟩ | ⟨h, _⟩⟩ := processWaiting_armed hwf h1
        · refine ⟨rfl, ⟨d, hd, hle⟩, (scheduleProcess_same cfg s1).1.trans hn, ?_⟩
          unfold scheduleProcess
          split
          · rename_i he
            exact .inl ⟨hd', fun n => by rw [List.isEmpty_iff.mp he]; rfl⟩
          · right
            have := hwf.jitter_hi s1.draws
            simp only [MAX_JITTER] at this
            have hd' : s1.delayTimer = none := hd'
            have hn : s1.now = s.now := hn
            rw [hd']
            exact ⟨_, rfl, by omega⟩
        · cases h
      · cases h; exact .inr (.refl _ _)
    · cases h; exact .inr (.refl _ _)
  | expire n =>
    right; right
    simp only [step] at h
    split at h
    · simp only [Res.ok.injEq] at h
      subst h
      split
      · exact .same rfl rfl rfl
      · exact .refl _ _
    · cases h; exact .refl _ _
  | fireStore => simp only [step, Res.ok.injEq] at h; subst h; exact .inr (.inr (.same rfl rfl rfl))

/-- An Interest waits only while the timer of the waiting list is set, to run within 500 ms. -/
structure Timed (s : Full) : Prop where
  soon : ∀ d, s.delayTimer = some d → d ≤ s.now + 500
  set : s.delayTimer = none → ∀ n, s.waiting.find n = none

theorem step_timed (hwf : cfg.WF) {s s' : Full} {op : Op} (hs : s.Timed) (h : step cfg s op = .ok s') (hle : s.now ≤ s'.now) : s'.Timed := by
  rcases step_armed hwf h with ⟨u, rfl, _, rfl⟩ | ⟨_, _, hn, ⟨h1, h2⟩ | ⟨d, h1, h2⟩⟩ | ⟨hn, ⟨hd, hk⟩ | ⟨_, _, d, hd, hle⟩⟩
  · exact ⟨fun d hd => (hs.soon d hd).trans (by simp only at hle ⊢; omega), hs.set⟩
  · exact ⟨fun d hd => by (rw [h1] at hd; cases hd), fun _ => h2⟩
  · refine ⟨fun d' hd => ?_, fun hd => by rw [h1] at hd; cases hd⟩
    rw [h1] at hd
    cases hd
    omega
  · refine ⟨fun d' hd' => ?_, fun hd' n => ?_⟩
    · rw [hd] at hd'
      rw [hn]
      exact hs.soon d' hd'
    · rw [hd] at hd'
      rcases hk with hk | ⟨_, hk⟩
      · exact hk n (hs.set hd' n)
      · rw [hd'] at hk; cases hk
  · refine ⟨fun d' hd' => ?_, fun hd' => by rw [hd] at hd'; cases hd'⟩
    rw [hd] at hd'
    cases hd'
    omega

end Full
end PSync
