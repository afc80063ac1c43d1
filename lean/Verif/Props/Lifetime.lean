import Verif.Proofs.Lifetime
import Verif.Spec.Lifetime
import Verif.Props.ConsumerWire
/-!
Property C86: an object that was destroyed is not used any more.
-/
namespace PSync
open Spec

/-- C86 for full sync: in whatever state a FullProducer is destroyed, nothing that happens later runs code of it. -/
theorem c86_full (cfg : Cfg) (s : Full) (h : Full.Reach cfg s) : Spec.Untouched s.destroy := by
  intro es u hu
  obtain ⟨e, _, he⟩ := Left.run_ub hu
  have ho : s.stopFetcher.orphans = [] := by
    have := Full.orphans_reach h
    exact this
  cases e with
  | fetcher k => simp [Left.event, Full.destroy, ho] at he
  | interest i => simp [Left.event, Full.destroy] at he

/-- C86, a superseded fetch of a FullProducer cannot call back: every fetcher it does not point to any more was stopped. -/
theorem c86_full_superseded (cfg : Cfg) (s : Full) (h : Full.Reach cfg s) : s.orphans = [] := Full.orphans_reach h

/-- C86, a superseded fetch of a Consumer cannot call back. -/
theorem c86_consumer_superseded (cfg : CCfg) (s : Cons) (h : Cons.Reach cfg s) : s.orphans = 0 := Cons.orphans_reach h

/-- C86 for consumers, exactly: code of a destroyed Consumer can run if and only if a hello or a sync Interest of it was
outstanding when it was destroyed. -/
theorem c86_consumer_exact (cfg : CCfg) (s : Cons) (h : Cons.Reach cfg s) :
    ¬ Spec.Untouched s.destroy ↔ s.helloFetcher = some true ∨ s.syncFetcher = some true := by
  have ho := Cons.orphans_reach h
  constructor
  · intro hu
    by_contra hno
    rw [not_or] at hno
    refine hu (fun es u hr => ?_)
    obtain ⟨e, _, he⟩ := Left.run_ub hr
    cases e with
    | fetcher k => simp [Left.event, Cons.destroy, ho, leftRunning, hno.1, hno.2] at he
    | interest i => simp [Left.event, Cons.destroy] at he
  · intro hf hu
    refine hu [.fetcher 0] .useAfterFree ?_
    have hp : 0 < s.destroy.fetchers := by
      unfold Cons.destroy leftRunning
      rcases hf with hf | hf <;> simp [hf]
    simp [Left.run, foldRes, Left.event, hp, Res.ub_bind]

/-- C86, partial, for consumers: after stop() a Consumer can be destroyed at any time before the application makes its next
call (missing: a Consumer that is destroyed without stop(), `c86_false_consumer`). -/
theorem c86_stopped_partial (cfg : CCfg) (s s' : Cons) (h : Cons.Reach cfg s) (ops : List Cons.Op)
    (hno : ∀ op ∈ ops, ∀ c, op ≠ .call c) (h' : Cons.run cfg s (.call .stop :: ops) = .ok s') : Spec.Untouched s'.destroy := by
  have hr : Cons.Reach cfg s' := by
    obtain ⟨s0, o, h0, h1⟩ := h
    refine ⟨s0, o ++ .call .stop :: ops, h0, ?_⟩
    unfold Cons.run
    rw [foldRes_append]
    unfold Cons.run at h1
    rw [h1, Res.ok_bind]
    exact h'
  have hq : Cons.Quiet s' := by
    unfold Cons.run at h'
    simp only [foldRes, Cons.step, Cons.call, Res.ok_bind] at h'
    exact foldRes_inv (P := Cons.Quiet) ops (fun _ op _ hop hP hst => (Cons.quiet_step hP (hno op hop) hst).1) s.stop_quiet h'
  by_contra hu
  rcases (c86_consumer_exact cfg s' hr).mp hu with hf | hf
  · exact hq.1 hf
  · exact hq.2.1 hf

/-- C86 is false for consumers: the hello reply that arrives after the Consumer has been destroyed runs its handler. -/
theorem c86_false_consumer : ∃ s, Cons.Reach sampleCCfg s ∧ ¬ Spec.Untouched s.destroy := by
  have key : ∃ s, consRun [.call .sendHello] = .ok s ∧ s.helloFetcher = some true := Res.of_get? (by decide +kernel)
  obtain ⟨s, h1, h2⟩ := key
  exact ⟨s, consRun_reach h1, (c86_consumer_exact _ s (consRun_reach h1)).mpr (.inl h2)⟩

/-- C86 for partial sync, exactly which events run code of a destroyed PartialProducer: the arrival of an Interest under the
hello or the sync prefix. -/
theorem c86_producer_exact (cfg : Cfg) (s : Part) (es : List FaceEvent) :
    (∃ u, (s.destroy cfg).run es = .ub u) ↔
      ∃ i, FaceEvent.interest i ∈ es ∧ ((cfg.syncPrefix ++ [HELLO]) <+: i.name ∨ (cfg.syncPrefix ++ [SYNC]) <+: i.name) := by
  have hev : ∀ i, (s.destroy cfg).event (.interest i) = .ub .useAfterFree ↔
      ((cfg.syncPrefix ++ [HELLO]) <+: i.name ∨ (cfg.syncPrefix ++ [SYNC]) <+: i.name) := by
    intro i
    simp only [Left.event, Part.destroy, List.any_cons, List.any_nil, Bool.or_false, Bool.or_eq_true, List.isPrefixOf_iff_prefix]
    split <;> simp_all
  constructor
  · rintro ⟨u, hu⟩
    obtain ⟨e, hm, he⟩ := Left.run_ub hu
    cases e with
    | fetcher k => simp [Left.event, Part.destroy] at he
    | interest i => exact ⟨i, hm, (hev i).mp he⟩
  · rintro ⟨i, hm, hi⟩
    exact ⟨_, Left.run_of_mem ((hev i).mpr hi) hm⟩

/-- C86 is false for partial sync: a hello Interest that arrives after the PartialProducer has been destroyed runs its
handler, in whatever state it was. -/
theorem c86_false_producer (cfg : Cfg) (s : Part) : ¬ Spec.Untouched (s.destroy cfg) := by
  intro h
  obtain ⟨u, hu⟩ := (c86_producer_exact cfg s [.interest ⟨cfg.syncPrefix ++ [HELLO], 1000, 9⟩]).mpr
    ⟨⟨cfg.syncPrefix ++ [HELLO], 1000, 9⟩, by simp, .inl List.prefix_rfl⟩
  exact h _ u hu

/-- Non-vacuity for C86: a FullProducer sends its first Interest when it is constructed, so there is a running fetcher that
its destructor has to stop; a consumer with a subscription has a sync fetch running, and stop() ends it. -/
example : ((Full.init sampleCfg).get?.map fun s => (s.running.length, s.destroy)) = some (1, ⟨0, []⟩) := by decide +kernel
example : ((consRun subscribed).get?.map fun s => s.destroy) = some ⟨1, []⟩ := by decide +kernel
example : ((consRun (subscribed ++ [.call .stop, .syncError false, .fire])).get?.map fun s => s.destroy) = some ⟨0, []⟩ := by
  decide +kernel

/-- C86 is false. -/
theorem c86_false : ¬ Spec.SafeToDestroy := fun h => c86_false_producer sampleCfg _ (h.2.1 sampleCfg _ ⟨[], rfl⟩)

end PSync
