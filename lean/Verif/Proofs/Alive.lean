import Verif.Proofs.Waiting
/-!
A FullProducer always has its next sync Interest scheduled.
-/
namespace PSync
open Spec
namespace Full

/-- The scheduled transmission: not in the past, not too late, never suppressed when it comes, and
able to end the wait for new data. -/
def Alive (cfg : Cfg) (s : Full) : Prop :=
  ∃ d k, s.sched = some (d, k) ∧ s.now ≤ d + cfg.lag ∧ d ≤ s.now + (max (cfg.lifetime / 2) cfg.freshness + 500) ∧
    (∀ t, s.lastSent = some t → t + 100 ≤ d ∧ t ≤ s.now) ∧
    (s.waitOut = true → k = .waitOut ∧ ∀ f, s.fetcher = some f → f.active = false)

theorem Alive.congr {cfg : Cfg} {s s' : Full} (h : Alive cfg s) (h1 : s'.sched = s.sched) (h2 : s'.now = s.now)
    (h3 : s'.lastSent = s.lastSent) (h4 : s'.waitOut = s.waitOut) (h5 : s'.fetcher = s.fetcher) : Alive cfg s' := by
  unfold Alive
  rw [h1, h2, h3, h4, h5]
  exact h

theorem Alive.stop {cfg : Cfg} {s : Full} (h : Alive cfg s) : Alive cfg s.stopFetcher := by
  obtain ⟨d, k, h1, h2, h3, h4, h5⟩ := h
  refine ⟨d, k, h1, h2, h3, h4, fun hw => ⟨(h5 hw).1, ?_⟩⟩
  intro f hf
  simp only [stopFetcher, Option.map_eq_some_iff] at hf
  obtain ⟨g, _, rfl⟩ := hf
  rfl

theorem Alive.endWait {cfg : Cfg} {s s' : Full} (h : Alive cfg s) (h1 : s'.sched = s.sched) (h2 : s'.now = s.now)
    (h3 : s'.lastSent = s.lastSent) (h4 : s'.waitOut = false) : Alive cfg s' := by
  obtain ⟨d, k, e1, e2, e3, e4, _⟩ := h
  unfold Alive
  rw [h1, h2, h3, h4]
  exact ⟨d, k, e1, e2, e3, e4, fun h => absurd h (by simp)⟩

/-- Arming the timer with a jitter. -/
theorem alive_arm {cfg : Cfg} (hwf : cfg.WF) {s s' : Full} (j : Nat) (h1 : s'.sched = some (s.now + cfg.jitter j, .renew))
    (h2 : s'.now = s.now) (h3 : ∀ t, s'.lastSent = some t → t ≤ s.now) (h4 : s'.waitOut = false) : Alive cfg s' := by
  have hlo := hwf.jitter_lo j
  have hhi := hwf.jitter_hi j
  refine ⟨_, _, h1, by omega, by simp only [MAX_JITTER] at hhi; omega, ?_, fun h => by rw [h4] at h; cases h⟩
  intro t ht
  have := h3 t ht
  simp only [MIN_JITTER] at hlo
  omega

theorem alive_sent {cfg : Cfg} (hwf : cfg.WF) {s s' : Full} (j : Nat)
    (h1 : s'.sched = some (s.now + cfg.lifetime / 2 + cfg.jitter j, .renew))
    (h2 : s'.now = s.now) (h3 : s'.lastSent = some s.now) (h4 : s'.waitOut = false) : Alive cfg s' := by
  have hlo := hwf.jitter_lo j
  have hhi := hwf.jitter_hi j
  simp only [MIN_JITTER, MAX_JITTER] at hlo hhi
  refine ⟨_, _, h1, by omega, by omega, ?_, fun h => by rw [h4] at h; cases h⟩
  intro t ht
  rw [h3] at ht
  cases ht
  omega

theorem sendSyncInterest_alive {cfg : Cfg} (hwf : cfg.WF) {s s' : Full} (hs : Alive cfg s)
    (h : sendSyncInterest cfg s = .ok s') : Alive cfg s' := by
  rcases sendSyncInterest_ok h with ⟨_, rfl⟩ | ⟨hw, name, hn, ⟨_, _, rfl⟩ | ⟨_, rfl⟩⟩
  · exact hs
  · exact hs.stop
  · exact alive_sent hwf (s := s) s.draws rfl rfl rfl hw

/-- When the timer itself runs, the Interest is sent. -/
theorem sendSyncInterest_rearm {cfg : Cfg} (hwf : cfg.WF) {s s' : Full} (hw : s.waitOut = false)
    (hr : s.recentlySent = false) (h : sendSyncInterest cfg s = .ok s') : Alive cfg s' := by
  rcases sendSyncInterest_ok h with ⟨h1, _⟩ | ⟨_, name, hn, ⟨h1, _, _⟩ | ⟨_, rfl⟩⟩
  · rw [hw] at h1; cases h1
  · rw [hr] at h1; cases h1
  · exact alive_sent hwf (s := s) s.draws rfl rfl rfl hw

theorem sendSyncData_alive {cfg : Cfg} (hwf : cfg.WF) {s s' : Full} {name : Name} {c : Bytes} {fr : Nat} (hs : Alive cfg s)
    (h : sendSyncData cfg s name c fr = .ok s') : Alive cfg s' := by
  unfold sendSyncData at h
  simp only [Res.bind_eq_ok] at h
  obtain ⟨buf, _, s1, h1, h2⟩ := h
  have h0 : Alive cfg (if (decide (s.outstanding = name) && s.fetcher.isSome) = true then
      { s.stopFetcher with outstanding := [] } else s) := by
    split
    · exact hs.stop.congr rfl rfl rfl rfl rfl
    · exact hs
  obtain ⟨r, _, rfl⟩ := publish_ok h1
  have h3 := h0.congr (s' := { (if (decide (s.outstanding = name) && s.fetcher.isSome) = true then
      { s.stopFetcher with outstanding := [] } else s) with pub := r.1, replies := (if (decide (s.outstanding = name) && s.fetcher.isSome) = true then
      { s.stopFetcher with outstanding := [] } else s).replies ++ [(name, buf, fr)], log := (if (decide (s.outstanding = name) && s.fetcher.isSome) = true then
      { s.stopFetcher with outstanding := [] } else s).log ++ r.2.map Out.data }) rfl rfl rfl rfl rfl
  split at h2
  · exact sendSyncInterest_alive hwf h3 h2
  · cases h2; exact h3

theorem markWaiting_alive {cfg : Cfg} {s : Full} (n : Name) (h : Alive cfg s) : Alive cfg (s.markWaiting n) := by
  rw [markWaiting_eq]
  exact h.congr rfl rfl rfl rfl rfl

theorem scheduleProcess_alive {cfg : Cfg} {s : Full} (h : Alive cfg s) : Alive cfg (scheduleProcess cfg s) := by
  rw [scheduleProcess_eq]
  exact h.congr rfl rfl rfl rfl rfl

theorem waitOrGiveUp_alive {cfg : Cfg} {s : Full} (i : Interest) (t : Bool) (h : Alive cfg s) :
    Alive cfg (waitOrGiveUp cfg s i t).1 := by
  unfold waitOrGiveUp
  split
  · split
    · exact scheduleProcess_alive (h.congr rfl rfl rfl rfl rfl)
    · exact h
  · split
    · split
      · exact markWaiting_alive _ h
      · exact h
    · exact h

theorem onSyncInterest_alive {cfg : Cfg} (hwf : cfg.WF) {s s' : Full} {i : Interest} {t : Bool} (hs : Alive cfg s)
    (h : onSyncInterest cfg s i t = .ok s') : Alive cfg s' := by
  rcases onSyncInterest_cases h with ⟨d, _, rfl⟩ | ⟨_, ⟨d, _, _, rfl⟩ | rfl | ⟨c2, c1, num, ib, df, _, _, _, _, _, _, h1⟩⟩
  · exact hs.congr rfl rfl rfl rfl rfl
  · exact hs.congr rfl rfl rfl rfl rfl
  · exact hs
  · rcases h1 with ⟨_, h1⟩ | ⟨_, h1⟩
    · unfold onUndecodable at h1
      split at h1
      · have hw := waitOrGiveUp_alive i t hs
        generalize waitOrGiveUp cfg s i t = x at h1 hw
        obtain ⟨s1, g⟩ := x
        cases g
        · simp only [Res.ok.injEq] at h1; subst h1; exact hw
        · exact sendSyncInterest_alive hwf hw h1
      · split at h1
        · cases h1; exact hs
        · simp only at h1
          split at h1
          · cases h1; exact markWaiting_alive _ hs
          · simp only [Res.bind_eq_ok, Res.ok.injEq] at h1
            obtain ⟨s1, h2, rfl⟩ := h1
            exact markWaiting_alive _ ((sendSyncData_alive hwf hs h2).congr rfl rfl rfl rfl rfl)
    · unfold onDecoded at h1
      split at h1
      · simp only [Res.ok.injEq] at h1
        subst h1
        split
        · exact markWaiting_alive _ (hs.congr rfl rfl rfl rfl rfl)
        · exact hs.congr rfl rfl rfl rfl rfl
      · split at h1
        · simp only [Res.ok.injEq] at h1
          subst h1
          exact waitOrGiveUp_alive _ _ hs
        · generalize collect df.negative s.base df.positive [] = x at h1
          obtain ⟨content, b⟩ := x
          simp only at h1
          split at h1
          · cases h1; exact hs.congr rfl rfl rfl rfl rfl
          · simp only [Res.bind_eq_ok, Res.ok.injEq] at h1
            obtain ⟨s1, h2, rfl⟩ := h1
            exact markWaiting_alive _ (sendSyncData_alive hwf (s := { s with base := b }) (hs.congr rfl rfl rfl rfl rfl) h2)

theorem processOne_alive {cfg : Cfg} (hwf : cfg.WF) {s s' : Full} {n : Name} (hs : Alive cfg s)
    (h : processOne cfg s n = .ok s') : Alive cfg s' := by
  unfold processOne at h
  cases hw : s.waiting.find n with
  | none => simp only [hw, Res.ok.injEq] at h; subst h; exact hs
  | some w =>
    simp only [hw] at h
    split at h
    · cases h; exact hs.congr rfl rfl rfl rfl rfl
    · simp only [Res.bind_eq_ok] at h
      obtain ⟨s1, h1, h2⟩ := h
      have h3 := onSyncInterest_alive hwf
        (s := { s with waiting := s.waiting.set n { w with numTries := w.numTries + 1 } }) (hs.congr rfl rfl rfl rfl rfl) h1
      cases hw2 : s1.waiting.find n with
      | none => simp only [hw2, Res.ok.injEq] at h2; subst h2; exact h3
      | some w2 =>
        simp only [hw2] at h2
        split at h2
        · cases h2; exact h3.congr rfl rfl rfl rfl rfl
        · cases h2; exact h3

theorem processWaiting_alive {cfg : Cfg} (hwf : cfg.WF) {s s' : Full} (hs : Alive cfg s)
    (h : processWaiting cfg s = .ok s') : Alive cfg s' :=
  foldRes_inv (P := Alive cfg) _ (fun _ _ _ _ hs h => processOne_alive hwf hs h) hs h

theorem call_alive {cfg : Cfg} (hwf : cfg.WF) {s s' : Full} {c : Call} (hs : Alive cfg s)
    (h : call cfg s c = .ok s') : Alive cfg s' := by
  cases c with
  | addUserNode p =>
    simp only [call, Res.ok.injEq] at h
    subst h
    exact hs.congr rfl rfl rfl rfl rfl
  | removeUserNode p =>
    simp only [call, Res.bind_eq_ok, Res.ok.injEq] at h
    obtain ⟨b, h1, rfl⟩ := h
    exact hs.congr rfl rfl rfl rfl rfl
  | publishName p q =>
    simp only [call, publishName] at h
    split at h
    · cases h; exact hs
    · rename_i cur _
      simp only [Res.bind_eq_ok] at h
      obtain ⟨b, _, h2⟩ := h
      unfold satisfyPending at h2
      refine foldRes_inv (P := Alive cfg) _ ?_
        (s := { s with base := b, waitOut := false, made := s.made ++ [(p, newSeq q cur)] }) (hs.endWait rfl rfl rfl rfl) h2
      intro a e b' _ ha h3
      unfold satisfyOne at h3
      simp only [Res.bind_eq_ok, Res.ok.injEq] at h3
      obtain ⟨d, _, s1, h4, rfl⟩ := h3
      exact (sendSyncData_alive hwf ha h4).congr rfl rfl rfl rfl rfl

theorem onSyncData_alive {cfg : Cfg} (hwf : cfg.WF) {s s' : Full} {n : Name} {buf : Bytes} {acts : List Call}
    (hs : Alive cfg s) (hf : ∀ f, s.fetcher = some f → f.active = false)
    (h : onSyncData cfg s n buf acts = .ok s') : Alive cfg s' := by
  unfold onSyncData at h
  simp only at h
  have hd : Alive cfg (s.deletePending n) := hs.congr rfl rfl rfl rfl rfl
  split at h
  · cases h; exact hd
  · simp only [Res.bind_eq_ok] at h
    obtain ⟨r, h1, h2⟩ := h
    split at h2
    · cases h2
      have hlo := hwf.jitter_lo s.draws
      have hhi := hwf.jitter_hi s.draws
      simp only [MIN_JITTER, MAX_JITTER] at hlo hhi
      obtain ⟨d, k, _, _, _, h6, _⟩ := hs
      refine ⟨_, _, rfl, ?_, ?_, ?_, ?_⟩
      · simp only [deletePending]; omega
      · simp only [deletePending]; omega
      · intro t ht
        have := (h6 t ht).2
        simp only [deletePending]
        omega
      · intro _
        exact ⟨rfl, hf⟩
    · simp only [Res.bind_eq_ok] at h2
      obtain ⟨s1, h3, h4⟩ := h2
      have h5 : Alive cfg s1 := by
        refine foldRes_inv (P := Alive cfg) acts (fun _ _ _ _ hs h => call_alive hwf hs h) ?_ h3
        exact hd.congr rfl rfl rfl rfl rfl
      refine processWaiting_alive hwf ?_ h4
      obtain ⟨d, k, _, _, _, h6, _⟩ := h5
      exact alive_arm hwf (s := s1) s1.draws rfl rfl (fun t ht => (h6 t ht).2) rfl

theorem step_alive {cfg : Cfg} (hwf : cfg.WF) {s s' : Full} {op : Op} (hs : Alive cfg s)
    (h : step cfg s op = .ok s') : Alive cfg s' := by
  cases op with
  | call c => exact call_alive hwf hs h
  | recvInterest i =>
    simp only [step] at h
    split at h
    · exact onSyncInterest_alive hwf hs h
    · cases h; exact hs
  | segment f =>
    simp only [step] at h
    split at h
    · cases h
      split
      · exact hs.congr rfl rfl rfl rfl rfl
      · exact hs
    · cases h; exact hs
  | complete buf acts =>
    simp only [step] at h
    split at h
    · split at h
      · refine onSyncData_alive hwf hs.stop ?_ h
        intro f hf
        simp only [stopFetcher, Option.map_eq_some_iff] at hf
        obtain ⟨g, _, rfl⟩ := hf
        rfl
      · cases h; exact hs
    · cases h; exact hs
  | error t =>
    simp only [step] at h
    split at h
    · rename_i f hf
      split at h
      · rename_i ha
        cases h
        split
        · exact hs.stop
        · obtain ⟨d, k, _, _, _, h6, h7⟩ := hs
          have hw : s.waitOut = false := by
            cases hw : s.waitOut with
            | false => rfl
            | true =>
              have := (h7 hw).2 f hf
              rw [ha] at this
              cases this
          exact alive_arm hwf (s := s) s.draws rfl rfl (fun t ht => (h6 t ht).2) hw
      · cases h; exact hs
    · cases h; exact hs
  | tick t =>
    simp only [step, Res.ok.injEq] at h
    subst h
    split
    · rename_i ht
      obtain ⟨d, k, e1, e2, e3, e4, e5⟩ := hs
      simp only [Bool.and_eq_true, decide_eq_true_eq, timersAfter, e1] at ht
      obtain ⟨ht1, ⟨⟨ht2, _⟩, _⟩, _⟩ := ht
      refine ⟨d, k, e1, ht2, Nat.le_trans e3 (Nat.add_le_add_right ht1 _), ?_, e5⟩
      intro t' ht'
      have := e4 t' ht'
      exact ⟨this.1, Nat.le_trans this.2 ht1⟩
    · exact hs
  | fireSync =>
    simp only [step] at h
    split at h
    · rename_i d k hsc
      split at h
      · rename_i hdue
        obtain ⟨d', k', e1, e2, e3, e4, e5⟩ := hs
        rw [hsc, Option.some.injEq, Prod.mk.injEq] at e1
        obtain ⟨rfl, rfl⟩ := e1
        have hrec : s.recentlySent = false := by
          unfold recentlySent
          cases hl : s.lastSent with
          | none => rfl
          | some t =>
            have := e4 t hl
            exact decide_eq_false (by simp only [MIN_JITTER]; omega)
        split at h
        · have hw : s.waitOut = false := by
            cases hw : s.waitOut with
            | false => rfl
            | true => have := (e5 hw).1; cases this
          exact sendSyncInterest_rearm hwf (s := { s with sched := none }) hw hrec h
        · exact sendSyncInterest_rearm hwf (s := { s with sched := none, waitOut := false }) rfl hrec h
      · cases h; exact hs
    · cases h; exact hs
  | fireDelay =>
    simp only [step] at h
    split at h
    · split at h
      · simp only [Res.bind_eq_ok, Res.ok.injEq] at h
        obtain ⟨s1, h1, rfl⟩ := h
        exact scheduleProcess_alive (processWaiting_alive hwf (s := { s with delayTimer := none }) (hs.congr rfl rfl rfl rfl rfl) h1)
      · cases h; exact hs
    · cases h; exact hs
  | expire n =>
    simp only [step] at h
    split at h
    · cases h
      split
      · exact hs.congr rfl rfl rfl rfl rfl
      · exact hs
    · cases h; exact hs
  | fireStore =>
    simp only [step, Res.ok.injEq] at h
    subst h
    exact hs.congr rfl rfl rfl rfl rfl

theorem init_alive {cfg : Cfg} (hwf : cfg.WF) {s : Full} (h : init cfg = .ok s) : Alive cfg s :=
  sendSyncInterest_rearm hwf rfl rfl h

theorem reach_alive {cfg : Cfg} (hwf : cfg.WF) {s : Full} (h : Reach cfg s) : Alive cfg s := by
  obtain ⟨s0, ops, h1, h2⟩ := h
  exact foldRes_inv (P := Alive cfg) ops (fun _ _ _ _ hs h => step_alive hwf hs h) (init_alive hwf h1) h2

end Full
end PSync
