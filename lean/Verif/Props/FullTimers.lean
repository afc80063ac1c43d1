import Verif.Proofs.Alive
import Verif.Props.FullPending
/-!
Properties C32 and C38: the sync Interests of a FullProducer go on forever.
-/
namespace PSync
open Spec

/-! ### C32 -/

/-- C32: at every moment a transmission is scheduled, at most max(lifetime/2, freshness) + 500 ms ahead, and it is
never late by more than the lag of the scheduler. -/
theorem c32_scheduled (cfg : Cfg) (hwf : cfg.WF) (s : Full) (hs : Full.Reach cfg s) :
    ∃ d k, s.sched = some (d, k) ∧ s.now ≤ d + cfg.lag ∧ d ≤ s.now + (max (cfg.lifetime / 2) cfg.freshness + 500) := by
  obtain ⟨d, k, h1, h2, h3, _⟩ := Full.reach_alive hwf hs
  exact ⟨d, k, h1, h2, h3⟩

/-- C32: the timer, when it is due, sends a sync Interest with the current IBF; nothing can suppress it or
make it fail. -/
theorem c32_transmits (cfg : Cfg) (hwf : cfg.WF) (s : Full) (hs : Full.Reach cfg s) (d : Nat) (k : SyncKind)
    (hd : s.sched = some (d, k)) (hdue : d ≤ s.now) :
    ∃ s' name, Full.step cfg s .fireSync = .ok s' ∧ Full.syncName cfg s.base = .ok name ∧
      s'.log = s.log ++ [.interest name cfg.lifetime] ∧ s'.fetcher = some ⟨name, true⟩ ∧ s'.base = s.base := by
  obtain ⟨d', k', e1, e2, e3, e4, e5⟩ := Full.reach_alive hwf hs
  rw [hd, Option.some.injEq, Prod.mk.injEq] at e1
  obtain ⟨rfl, rfl⟩ := e1
  have hrec : s.recentlySent = false := by
    unfold Full.recentlySent
    cases hl : s.lastSent with
    | none => rfl
    | some t =>
      have := e4 t hl
      exact decide_eq_false (by simp only [MIN_JITTER]; omega)
  obtain ⟨name, hname⟩ : ∃ name, Full.syncName cfg s.base = .ok name := by
    unfold Full.syncName Table.toComponent
    obtain ⟨y, h1, _⟩ := hwf.iblt_lossless s.base.iblt.encode
    rw [h1]
    exact ⟨_, rfl⟩
  have send : ∀ x : Full, x.waitOut = false → x.recentlySent = false → x.base = s.base → x.log = s.log →
      ∃ s', Full.sendSyncInterest cfg x = .ok s' ∧ s'.log = s.log ++ [.interest name cfg.lifetime] ∧
        s'.fetcher = some ⟨name, true⟩ ∧ s'.base = s.base := by
    intro x hw hr hb hlog
    unfold Full.sendSyncInterest
    have h2 : x.stopFetcher.recentlySent = false := hr
    have h3 : x.stopFetcher.base = s.base := hb
    have h4 : x.stopFetcher.log = s.log := hlog
    simp only [hw, h3, hname, Res.ok_bind, h2, h4, Bool.false_and, Bool.false_eq_true, if_false]
    exact ⟨_, rfl, rfl, rfl, rfl⟩
  simp only [Full.step, hd]
  rw [if_pos hdue]
  cases k with
  | renew =>
    have hw : s.waitOut = false := by
      cases hw : s.waitOut with
      | false => rfl
      | true => have := (e5 hw).1; cases this
    obtain ⟨s', h1, h2, h3, h4⟩ := send { s with sched := none } hw hrec rfl rfl
    exact ⟨s', name, h1, hname, h2, h3, h4⟩
  | waitOut =>
    obtain ⟨s', h1, h2, h3, h4⟩ := send { s with sched := none, waitOut := false } rfl hrec rfl rfl
    exact ⟨s', name, h1, hname, h2, h3, h4⟩

set_option synthInstance.maxSize 1024 in
/-- Non-vacuity for C32: Data without news starts the wait; when it is over the Interest is sent. -/
example : (Res.bind (Full.init sampleCfg) fun s => Full.run sampleCfg s
      [.tick 40, .complete (encodeNames []) [], .tick 1141]).get?.bind (fun s =>
      (Full.step sampleCfg s .fireSync).get?.map (fun s' : Full =>
        (s.now, s.waitOut, s.sched, s'.sched, s'.log.drop s.log.length)))
      = some (1141, true, some (1141, .waitOut), some (1741, .renew), [.interest emptyInterest.name 1000]) := by decide +kernel

set_option synthInstance.maxSize 1024 in
/-- The same with a scheduler that may be 30 ms late: the Interest due at 600 is sent at 625, and the clock does not reach
631 before. -/
example : (Res.bind (Full.init { sampleCfg with lag := 30 }) fun s => Full.run { sampleCfg with lag := 30 } s
      [.tick 625, .tick 631]).get?.bind (fun s =>
      (Full.step { sampleCfg with lag := 30 } s .fireSync).get?.map (fun s' : Full =>
        (s.now, s.sched, s'.sched, s'.log.drop s.log.length)))
      = some (625, some (600, .renew), some (1226, .renew), [.interest emptyInterest.name 1000]) := by decide +kernel

/-! ### C38 -/

/-- An Interest with the current IBF is out, and its Data can still be taken. -/
def Spec.Outstanding (cfg : Cfg) (s : Full) : Prop :=
  ∃ name, Full.syncName cfg s.base = .ok name ∧ s.fetcher = some ⟨name, true⟩

/-- The full claim C38. -/
def Spec.AttemptLeavesOutstanding : Prop :=
  ∀ cfg : Cfg, cfg.WF → ∀ (s s' : Full), Full.Reach cfg s → s.waitOut = false →
    Full.sendSyncInterest cfg s = .ok s' → Spec.Outstanding cfg s'

/-- C38, partial: an attempt outside the wait leaves the current Interest outstanding unless the same
Interest was sent less than 100 ms before.  (Missing: in that case the outstanding Interest is cancelled
and none is sent, `c38_false`.) -/
theorem c38_attempt_partial (cfg : Cfg) (s s' : Full) (hw : s.waitOut = false)
    (h100 : (∀ t, s.lastSent = some t → t + 100 ≤ s.now) ∨ Full.syncName cfg s.base ≠ .ok s.outstanding)
    (h : Full.sendSyncInterest cfg s = .ok s') :
    Spec.Outstanding cfg s' ∧ ∃ name, s'.log = s.log ++ [.interest name cfg.lifetime] ∧
      Full.syncName cfg s.base = .ok name ∧ s'.base = s.base := by
  rcases Full.sendSyncInterest_ok h with ⟨h1, _⟩ | ⟨_, name, hn, ⟨h1, h2, _⟩ | ⟨_, rfl⟩⟩
  · rw [hw] at h1; cases h1
  · exfalso
    rcases h100 with h3 | h3
    · unfold Full.recentlySent at h1
      cases hl : s.lastSent with
      | none => rw [hl] at h1; simp at h1
      | some t =>
        have := h3 t hl
        rw [hl] at h1
        have h4 := of_decide_eq_true h1
        simp only [MIN_JITTER] at h4
        omega
    · exact h3 (by rw [h2]; exact hn)
  · exact ⟨⟨name, hn, rfl⟩, name, rfl, hn, rfl⟩

/-- C38: a reply sent to our own outstanding Interest (from within) replaces it by a new one. -/
theorem c38_after_reply (cfg : Cfg) (s s' : Full) (content : Bytes) (fr : Nat) (hw : s.waitOut = false)
    (hf : s.fetcher.isSome = true) (h : Full.sendSyncData cfg s s.outstanding content fr = .ok s') :
    Spec.Outstanding cfg s' := by
  unfold Full.sendSyncData at h
  simp only [Res.bind_eq_ok, decide_true, Bool.true_and, hf, if_true] at h
  obtain ⟨buf, _, s1, h1, h2⟩ := h
  obtain ⟨r, _, rfl⟩ := Full.publish_ok h1
  refine (c38_attempt_partial cfg _ s' ?_ (Or.inr ?_) h2).1
  · exact hw
  · intro e
    unfold Full.syncName at e
    simp only [Res.bind_eq_ok, Res.ok.injEq, Name.appendNumber] at e
    obtain ⟨c, _, e⟩ := e
    simp [Full.stopFetcher] at e

/-- An Interest that reports 9 publications with an IBF that does not decode. -/
def garbageInterest : Interest :=
  ⟨nameOf [115] ++ [⟨8, (List.replicate 6 [0, 0, 0, 5, 0, 0, 0, 1, 0, 0, 0, 2]).flatten⟩, ⟨8, [9]⟩], 1000, 3⟩

/-- It arrives at 400 and is retried at 501; our Interest is renewed at 600. -/
def cancelOps : List Full.Op :=
  [.tick 400, .recvInterest garbageInterest, .tick 501, .fireDelay, .tick 600, .fireSync, .tick 601]

set_option synthInstance.maxSize 1024 in
/-- C38 is false as stated: an attempt less than 100 ms after the last one cancels the outstanding Interest
and sends none. -/
theorem c38_false : ¬ Spec.AttemptLeavesOutstanding := by
  intro h
  have key : ∃ s, (Res.bind (Full.init sampleCfg) fun s => Full.run sampleCfg s cancelOps) = .ok s ∧
      (s.waitOut, (Full.sendSyncInterest sampleCfg s).get?.map (fun s' : Full => s'.fetcher.map (·.active)))
      = (false, some (some false)) := Res.of_get? (by decide +kernel)
  obtain ⟨s, h1, h2⟩ := key
  simp only [Prod.mk.injEq] at h2
  obtain ⟨s', h3, h4⟩ := Res.of_get? h2.2
  rw [Res.bind_eq_ok] at h1
  obtain ⟨s0, h0, h1⟩ := h1
  obtain ⟨name, _, h5⟩ := h sampleCfg sampleCfg_wf s s' ⟨s0, _, h0, h1⟩ h2.1 h3
  rw [h5] at h4
  simp at h4

set_option synthInstance.maxHeartbeats 100000 in
set_option synthInstance.maxSize 4096 in
/-- C38: the same as an event.  Giving up on a delayed Interest 1 ms after our Interest was renewed leaves
us without an outstanding Interest for the next half second. -/
theorem c38_event : ∃ s s', Full.Reach sampleCfg s ∧ Spec.Outstanding sampleCfg s ∧
    Full.step sampleCfg s .fireDelay = .ok s' ∧ s'.log = s.log ∧ s'.waitOut = false ∧
    s'.fetcher.map (·.active) = some false ∧ s'.sched = some (1201, .renew) ∧ s'.now = 601 := by
  have key : ∃ s, (Res.bind (Full.init sampleCfg) fun s => Full.run sampleCfg s cancelOps) = .ok s ∧
      ((Full.syncName sampleCfg s.base).get?, decide (s.fetcher = some ⟨emptyInterest.name, true⟩), (Full.step sampleCfg s .fireDelay).get?.map (fun s' : Full =>
        (decide (s'.log = s.log), s'.waitOut, s'.fetcher.map (·.active), s'.sched, s'.now)))
      = (some emptyInterest.name, true, some (true, false, some false, some (1201, .renew), 601)) :=
    Res.of_get? (by decide +kernel)
  obtain ⟨s, h1, h2⟩ := key
  simp only [Prod.mk.injEq] at h2
  obtain ⟨h2, h3, h4⟩ := h2
  obtain ⟨s', h5, h6⟩ := Res.of_get? h4
  simp only [Prod.mk.injEq, decide_eq_true_eq] at h6
  rw [Res.bind_eq_ok] at h1
  obtain ⟨s0, h0, h1⟩ := h1
  obtain ⟨n, h7, h8⟩ := Res.of_get? (f := id) (by rw [h2]; rfl : (Full.syncName sampleCfg s.base).get?.map id = some emptyInterest.name)
  exact ⟨s, s', ⟨s0, _, h0, h1⟩, ⟨emptyInterest.name, by rw [h7]; exact congrArg _ h8, of_decide_eq_true h3⟩, h5, h6.1, h6.2.1, h6.2.2.1, h6.2.2.2.1, h6.2.2.2.2⟩

set_option synthInstance.maxSize 1024 in
/-- Non-vacuity for C38: 500 ms after the last Interest the attempt succeeds. -/
example : (Res.bind (Full.init sampleCfg) fun s => Full.run sampleCfg s [.tick 500]).get?.bind (fun s =>
      (Full.sendSyncInterest sampleCfg s).get?.map (fun s' : Full => (s.lastSent, s'.fetcher))) =
      some (some 0, some ⟨emptyInterest.name, true⟩) := by decide +kernel

end PSync
