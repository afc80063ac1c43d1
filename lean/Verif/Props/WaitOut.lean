import Verif.Proofs.WaitOut
import Verif.Proofs.StoreTime
import Verif.Proofs.Pace
import Verif.Props.FullTimers
/-!
Property C67: how long a FullProducer waits after a reply that brought nothing.
-/
namespace PSync
open Spec

namespace Full

theorem run_held {cfg : Cfg} (hwf : cfg.WF) {d : Nat} {l : List Out} {ops : List Op} (hp : ∀ op ∈ ops, ∀ p, ¬ op.Publishes p) :
    ∀ {s s' : Full}, Reach cfg s → Held d l s → s.now ≤ d + cfg.lag → run cfg s ops = .ok s' →
    (Held d l s' ∧ s'.now ≤ d + cfg.lag) ∨ (d ≤ s'.now ∧ ∃ ext n t, s'.log = l ++ ext ∧ Out.interest n t ∈ ext) := by
  induction ops with
  | nil => intro s s' _ hs hd h; simp only [run, foldRes, Res.ok.injEq] at h; subst h; exact Or.inl ⟨hs, hd⟩
  | cons op ops ih =>
    intro s s' hr hs hd h
    simp only [run, foldRes, Res.bind_eq_ok] at h
    obtain ⟨s1, h1, h2⟩ := h
    have hr1 : Reach cfg s1 := hr.next h1
    have hp' : ∀ o ∈ ops, ∀ p, ¬ o.Publishes p := fun o ho => hp o (List.mem_cons_of_mem _ ho)
    by_cases hdue : op = .fireSync ∧ d ≤ s.now
    · right
      obtain ⟨rfl, hdue⟩ := hdue
      obtain ⟨s1', n, e1, _, e3, _⟩ := c32_transmits cfg hwf s hr d .waitOut hs.sched hdue
      rw [h1, Res.ok.injEq] at e1
      subst e1
      obtain ⟨ext, e4, _⟩ := hs.silent
      obtain ⟨ext', e5⟩ := run_log hr1 h2
      have e6 := (step_clocked (reach_clocked hr) h1).2.1
      have e7 := (run_clocked (reach_clocked hr1) h2).2
      refine ⟨by omega, ext ++ [.interest n cfg.lifetime] ++ ext', n, cfg.lifetime, ?_, by simp⟩
      rw [← e5, e3, e4]
      simp
    · have h3 : Held d l s1 := step_held hs (fun h => by by_contra hcon; exact hdue ⟨h, by omega⟩) (hp op (by simp)) h1
      obtain ⟨d', k, e1, e2, _⟩ := reach_alive hwf hr1
      rw [h3.sched, Option.some.injEq, Prod.mk.injEq] at e1
      exact ih hp' hr1 h3 (by omega) h2

end Full

/-- C67: a fetch completes with a reply that can be decoded, and the application is not notified.  As long as it
publishes nothing, the node sends no sync Interest for syncReplyFreshness + 100 ms, and it sends one within
syncReplyFreshness + 500 ms (and the time the timer is late). -/
theorem c67_wait_out (cfg : Cfg) (hwf : cfg.WF) (s s1 s2 : Full) (hr : Full.Reach cfg s) (f : Fetcher)
    (hf : s.fetcher = some f) (ha : f.active = true) (buf raw : Bytes) (st : StateMsg) (acts : List Full.Call)
    (hz : cfg.contentCodec.decompress buf = some raw) (hd : StateMsg.wireDecode raw = .ok st)
    (h1 : Full.step cfg s (.complete buf acts) = .ok s1) (hno : ∀ us, Out.update us ∉ newOutput s s1)
    (ops : List Full.Op) (hp : ∀ op ∈ ops, ∀ p, ¬ op.Publishes p) (h2 : Full.run cfg s1 ops = .ok s2) :
    (s2.now < s.now + cfg.freshness + 100 → ∀ n t, Out.interest n t ∉ newOutput s s2) ∧
    (s.now + cfg.freshness + 500 + cfg.lag < s2.now → ∃ n t, Out.interest n t ∈ newOutput s s2) := by
  have hdec : Full.decodeReply cfg buf = some st.content := by simp [Full.decodeReply, hz, hd]
  obtain ⟨h3, h4, h5⟩ := Full.complete_held (Full.reach_inv hr) hf ha hdec (Or.inl hno) h1
  have hlo := hwf.jitter_lo s.draws
  have hhi := hwf.jitter_hi s.draws
  simp only [MIN_JITTER, MAX_JITTER] at hlo hhi
  have h6 := Full.run_held hwf hp (hr.next h1) h3 (by omega) h2
  unfold newOutput
  rcases h6 with ⟨⟨_, _, _, ext, h7, h8⟩, h9⟩ | ⟨h7, ext, n, t, h8, h9⟩
  · rw [h7, h5, List.drop_left]
    exact ⟨fun _ => h8, fun h => by omega⟩
  · rw [h8, h5, List.drop_left]
    exact ⟨fun h => by omega, fun _ => ⟨n, t, h9⟩⟩

/-- What was sent after the first `n` effects: the Interests. -/
def interestsFrom (n : Nat) (s : Full) : List Name :=
  (s.log.drop n).filterMap (fun o => match o with | .interest n _ => some n | _ => none)

set_option synthInstance.maxSize 1024 in
/-- Non-vacuity for C67: an empty reply at 40 ms.  The node is asked twice and its Interest times out; it is silent
until 1139 ms.  It has sent an Interest by 1541 ms. -/
example : (Res.bind (Full.init sampleCfg) fun s => Full.run sampleCfg s [.tick 40]).get?.bind (fun s =>
      (Full.step sampleCfg s (.complete (encodeNames []) [])).get?.bind (fun s1 : Full =>
        (Full.run sampleCfg s1 [.recvInterest emptyInterest, .tick 200, .error true, .fireSync, .recvInterest emptyInterest,
          .tick 1139]).get?.bind (fun s2 : Full =>
        (Full.run sampleCfg s2 [.tick 1141, .fireSync, .tick 1200, .expire emptyInterest.name, .tick 1541]).get?.map (fun s3 : Full =>
        decide (s.fetcher.map (·.active) = some true ∧ sampleCfg.contentCodec.decompress (encodeNames []) = some (encodeNames []) ∧
          (StateMsg.wireDecode (encodeNames [])).get?.map (·.content) = some [] ∧ newOutput s s1 = []) &&
        decide ((s.now, s2.now, interestsFrom s.log.length s2) = (40, 1139, [])) &&
        decide ((s3.now, interestsFrom s.log.length s3) = (1541, [emptyInterest.name]))))))
      = some true := by decide +kernel

set_option synthInstance.maxSize 1024 in
/-- The wait may end early if the application publishes: the name the node had asked for itself is parked, and
answering it makes the node ask anew. -/
example : (Res.bind (Full.init sampleCfg) fun s => Full.run sampleCfg s [.tick 40]).get?.bind (fun s =>
      (Full.step sampleCfg s (.complete (encodeNames []) [])).get?.bind (fun s1 : Full =>
        (Full.run sampleCfg s1 [.recvInterest emptyInterest, .call (.addUserNode pA), .tick 200,
          .call (.publishName pA none)]).get?.map (fun s2 : Full =>
        (s2.now, (interestsFrom s.log.length s2).length)))) = some (200, 1) := by decide +kernel

end PSync
