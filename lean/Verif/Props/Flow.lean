import Verif.Proofs.Flow
import Verif.Props.FullPending
import Verif.Props.PartialSync
/-!
Property C89: at most one Data per Interest.
-/
namespace PSync
open Spec

/-- C89 for a PartialProducer: the Data put and the Interests still parked together are never more than the Interests received. -/
theorem c89_partial_producer (cfg : Cfg) (ops : List Part.Op) (s : Part) (h : Part.run cfg (Part.init cfg) ops = .ok s) :
    (dataOf s.log).length + s.pending.length ≤ ops.countP (partAccepts cfg) := by
  have := Part.run_flow ops (cfg := cfg) (s := Part.init cfg) ⟨NMap.sorted_nil, fun n e h => by cases h⟩ h
  have h0 : Part.flow (Part.init cfg) = 0 := rfl
  rw [h0, Nat.zero_add] at this
  exact this

/-- C89 for a FullProducer, one event: an Interest is answered by at most one Data. -/
theorem c89_each (cfg : Cfg) (s s' : Full) (i : Interest) (h : Full.step cfg s (.recvInterest i) = .ok s') :
    (dataOf s'.log).length ≤ (dataOf s.log).length + 1 := by
  simp only [Full.step] at h
  split at h
  · cases Full.onSyncInterest_effect h with
    | nothing h1 => exact Nat.le_succ_of_le h1.le
    | waits _ _ h1 => exact Nat.le_succ_of_le h1.le
    | marks h1 => exact Nat.le_succ_of_le h1.le
    | parks e h1 => exact Nat.le_succ_of_le h1.le
    | replies h1 => exact h1
    | old d h1 => exact h1.le
  · cases h; exact Nat.le_succ _

/-- C89 for a FullProducer, as long as no Interest is parked and waits to be tried again at the same time.  (Missing: then the Data
that answers the parked one answers every retry of the waiting one from memory as well, `c89_false`.) -/
theorem c89_full_partial (cfg : Cfg) (s0 s : Full) (ops : List Full.Op) (h0 : Full.init cfg = .ok s0)
    (hb : ∀ pre s1, pre <+: ops → Full.run cfg s0 pre = .ok s1 → NotBoth s1) (h : Full.run cfg s0 ops = .ok s) :
    (dataOf s.log).length + s.pending.length ≤ ops.countP (fullAccepts cfg) := by
  obtain ⟨hl, hp, hw⟩ := Full.init_lists h0
  have := Full.run_flow ops hl (by intro n w hn; rw [hw] at hn; cases hn) hb h
  have hz : Full.flow s0 = 0 := by
    unfold Full.flow
    rw [(Full.sendSyncInterest_sent h0).1, hp, hw]
    rfl
  rw [hz, Nat.zero_add] at this
  unfold Full.flow Full.sent at this
  omega

/-- C89 for a FullProducer that is never sent two Interests with the same name. -/
theorem c89_distinct_partial (cfg : Cfg) (s0 s : Full) (ops : List Full.Op) (h0 : Full.init cfg = .ok s0)
    (hd : (ops.filterMap (acceptedName cfg)).Nodup) (h : Full.run cfg s0 ops = .ok s) :
    (dataOf s.log).length + s.pending.length ≤ ops.countP (fullAccepts cfg) := by
  obtain ⟨hl, hp, hw⟩ := Full.init_lists h0
  refine c89_full_partial cfg s0 s ops h0 ?_ h
  rintro pre s1 ⟨post, rfl⟩ h1
  refine Full.run_notBoth pre (ns := []) hl ?_ ?_ ?_ h1
  · intro n e w he; rw [hp] at he; cases he
  · constructor
    · intro n e he; rw [hp] at he; cases he
    · intro n e he; rw [hw] at he; cases he
  · rw [List.filterMap_append] at hd
    exact (List.nodup_append.1 hd).1

/-- An Interest of a peer that has published `pA`/1. -/
def twiceName : Name := ((Res.bind (Full.run sampleCfg (Full.fresh sampleCfg)
  [.call (.addUserNode pA), .call (.publishName pA none)]) fun s => Full.syncName sampleCfg s.base).get?).getD []

/-- The Interest arrives and waits; we publish `pA`/1; it arrives again and is parked; we publish `pA`/2, which answers it; and the
retries of the waiting one are answered from memory. -/
def twiceOps : List Full.Op :=
  [.call (.addUserNode pA), .recvInterest ⟨twiceName, 1000, 1⟩, .call (.publishName pA none), .recvInterest ⟨twiceName, 1000, 2⟩,
   .call (.publishName pA none), .tick 101, .fireDelay, .tick 201, .fireDelay, .tick 302, .fireDelay]

theorem twice_run : (Res.bind (Full.init sampleCfg) fun s0 => Full.run sampleCfg s0 twiceOps).get?.map
    (fun s => (dataOf s.log).length) = some 4 ∧ twiceOps.countP (fullAccepts sampleCfg) = 2 := by decide +kernel

/-- C89 is false for a FullProducer: an Interest that is received twice is answered any number of times. -/
theorem c89_false : ¬ OneDataPerInterest := by
  intro h
  obtain ⟨h1, h2⟩ := twice_run
  cases h0 : Full.init sampleCfg with
  | ok s0 =>
    rw [h0, Res.ok_bind] at h1
    obtain ⟨s, hs, hl⟩ := Res.of_get? h1
    have := (h sampleCfg sampleCfg_wf).2 s0 twiceOps s h0 hs
    rw [h2] at this
    omega
  | throw e => rw [h0] at h1; simp [Res.bind, Res.get?] at h1
  | ub u => rw [h0] at h1; simp [Res.bind, Res.get?] at h1
  | hang => rw [h0] at h1; simp [Res.bind, Res.get?] at h1

/-- Non-vacuity for `c89_distinct_partial`: two different Interests, one parked and answered, the other answered at once; and for
`c89_partial_producer`: a hello Interest is answered. -/
example : (Res.bind (Full.init sampleCfg) fun s0 => Full.run sampleCfg s0
    [.call (.addUserNode pA), .recvInterest ⟨s0.outstanding, 1000, 1⟩, .call (.publishName pA none), .call (.publishName pA none),
      .recvInterest ⟨twiceName, 1000, 2⟩]).get?.map (fun s => ((dataOf s.log).length, s.pending.length)) = some (2, 0) ∧
    (Part.run sampleCfg (Part.init sampleCfg) [.addUserNode pA, .publishName pA none,
      .recvInterest ⟨nameOf [115] ++ [HELLO], 1000, 1⟩]).get?.map (fun s => (dataOf s.log).length) = some 1 := by
  decide +kernel

end PSync
