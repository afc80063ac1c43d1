import Verif.Proofs.Spaced
import Verif.Props.WaitOut
/-!
Properties C69 and C70: a FullProducer asks again soon enough, and not too soon.
-/
namespace PSync
open Spec

theorem Full.Asked.new {s s' : Full} (h : Full.Asked s.log s') : ∃ n t, Out.interest n t ∈ newOutput s s' := by
  obtain ⟨ext, n, t, h1, h2⟩ := h
  unfold newOutput
  exact ⟨n, t, by rw [h1, List.drop_left]; exact h2⟩

/-! ### C69 -/

/-- C69: a fetch fails with anything but a timeout (a nack, a packet that does not validate, ...).  The node has sent a sync
Interest when more than 500 ms (and the lag of the scheduler) have passed, whatever happens in the meantime. -/
theorem c69_retry (cfg : Cfg) (hwf : cfg.WF) (s s1 s2 : Full) (hr : Full.Reach cfg s) (f : Fetcher)
    (hf : s.fetcher = some f) (ha : f.active = true) (h1 : Full.step cfg s (.error false) = .ok s1)
    (ops : List Full.Op) (h2 : Full.run cfg s1 ops = .ok s2) (ht : s.now + 500 + cfg.lag < s2.now) :
    ∃ n t, Out.interest n t ∈ newOutput s s2 :=
  (Full.run_due hwf (hr.next h1) (Full.error_due hwf hf ha h1) h2 ht).new

/-- C69: a fetch completes and the application is notified of updates.  The node has sent a sync Interest when more than
500 ms (and the lag) have passed, whatever the application does in the callback and whatever happens later. -/
theorem c69_renew (cfg : Cfg) (hwf : cfg.WF) (s s1 s2 : Full) (hr : Full.Reach cfg s) (buf : Bytes) (acts : List Full.Call)
    (h1 : Full.step cfg s (.complete buf acts) = .ok s1) (us : List MissingDataInfo) (hu : Out.update us ∈ newOutput s s1)
    (ops : List Full.Op) (h2 : Full.run cfg s1 ops = .ok s2) (ht : s.now + 500 + cfg.lag < s2.now) :
    ∃ n t, Out.interest n t ∈ newOutput s s2 := by
  obtain ⟨d, k, e1, _⟩ := Full.reach_alive hwf hr
  have h3 := h1
  simp only [Full.step] at h3
  split at h3
  · rename_i f hf
    split at h3
    · rcases Full.complete_due hwf (D := d) List.prefix_rfl ⟨d, k, e1, le_refl _⟩ h3 with ⟨h4, _⟩ | ⟨h4, _⟩ | h4
      · exact absurd hu (h4 us)
      · exact absurd hu (h4 us)
      · exact (Full.run_due hwf (hr.next h1) h4 h2 ht).new
    · cases h3; simp [newOutput] at hu
  · cases h3; simp [newOutput] at hu

/-- C69: in any stretch of time longer than lifetime/2 + syncReplyFreshness + 1000 ms and twice the lag, a node sends a sync Interest. -/
theorem c69_pace (cfg : Cfg) (hwf : cfg.WF) (s s2 : Full) (hr : Full.Reach cfg s) (ops : List Full.Op)
    (h : Full.run cfg s ops = .ok s2) (ht : s.now + cfg.lifetime / 2 + cfg.freshness + 1000 + 2 * cfg.lag < s2.now) :
    ∃ n t, Out.interest n t ∈ newOutput s s2 := by
  obtain ⟨d, k, e1, e2, e3, _⟩ := Full.reach_alive hwf hr
  by_cases hi : ∀ f, s.fetcher = some f → f.active = false
  · exact (Full.run_due (D := d) hwf hr (Or.inr ⟨List.prefix_rfl, hi, d, k, e1, le_refl _⟩) h (by omega)).new
  · simp only [not_forall] at hi
    obtain ⟨f, hf, ha⟩ := hi
    have := Full.reach_quick hwf hr f hf (by simpa using ha)
    exact (Full.run_busy hwf hr List.prefix_rfl this h (by omega)).new

set_option synthInstance.maxSize 1024 in
/-- Non-vacuity for C69: the first Interest is nacked at 40 ms, asked for by others, and sent again at 141 ms; the reply to it brings
an update, and in the callback the application publishes; the next Interest is sent at 260 ms. -/
example : (Res.bind (Full.init sampleCfg) fun s => Full.run sampleCfg s [.tick 40]).get?.bind (fun s =>
      (Full.step sampleCfg s (.error false)).get?.bind (fun s1 : Full =>
        (Full.run sampleCfg s1 [.recvInterest emptyInterest, .tick 141, .fireSync, .tick 159]).get?.bind (fun s2 : Full =>
        (Full.step sampleCfg s2 (.complete (encodeNames [pA.appendNumber 1]) [.addUserNode pB, .publishName pB none])).get?.bind (fun s3 : Full =>
        (Full.run sampleCfg s3 [.tick 260, .fireSync]).get?.map (fun s4 : Full =>
        decide (s.fetcher.map (·.active) = some true ∧ s1.sched = some (141, .renew) ∧
          interestsFrom s.log.length s1 = [] ∧ interestsFrom s.log.length s2 = [emptyInterest.name] ∧
          (newOutput s2 s3).any (fun o => match o with | .update _ => true | _ => false) = true) &&
        decide (s3.sched = some (260, .renew) ∧ interestsFrom s2.log.length s3 = [] ∧
          (interestsFrom s2.log.length s4).length = 1))))))
      = some true := by decide +kernel

/-! ### C70 -/

/-- C70: a node does not send the same sync Interest twice within less than 100 ms, unless it has sent Data under the name of
the Interest in between. -/
theorem c70_spacing (cfg : Cfg) (s s2 : Full) (ops : List Full.Op) (h : Full.run cfg s ops = .ok s2)
    (ht : s2.now < s.now + 100) (a b c : List Out) (n : Name) (t t' : Nat)
    (hout : newOutput s s2 = a ++ .interest n t :: (b ++ .interest n t' :: c)) (hb : ∀ m u, Out.interest m u ∉ b) :
    ∃ d, Out.data d ∈ b ∧ n <+: d.name := by
  have h0 : Full.Spaced cfg s.now s.log s := by
    refine ⟨[], by simp, le_refl _, ?_, ?_⟩
    · intro _ a n t b t' c hx; simp at hx
    · intro a n t b hx; simp at hx
  obtain ⟨ext, h1, h2⟩ := Full.run_spaced h0 h
  have : newOutput s s2 = ext := by unfold newOutput; rw [h1, List.drop_left]
  rw [this] at hout
  exact h2.apart ht a n t b t' c hout hb

set_option synthInstance.maxSize 1024 in
/-- Non-vacuity for C70: at 600 ms the node asks, and hears its own Interest; the application publishes an old number; the node
answers itself and asks again under the same name. -/
example : (Res.bind (Full.init sampleCfg) fun s => Full.run sampleCfg s [.call (.addUserNode pA), .tick 600]).get?.bind (fun s =>
      (Full.run sampleCfg s [.fireSync, .recvInterest emptyInterest, .tick 650, .call (.publishName pA (some 0))]).get?.map (fun s2 : Full =>
        decide ((s.now, s2.now) = (600, 650)) &&
        (match newOutput s s2 with
          | [.interest n _, .data d, .interest m _] => decide (n = emptyInterest.name) && decide (m = n) && n.isPrefixOf d.name
          | _ => false))) = some true := by decide +kernel

end PSync
