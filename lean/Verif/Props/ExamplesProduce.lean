import Verif.Proofs.ExamplesProduce
import Verif.Props.ExamplesPrint
/-!
C65.  The example producers publish each stream as often as they were asked to.
-/
namespace PSync
open Spec

/-- C65 for the example of partial sync: when nothing is scheduled for a stream any more, the numbers printed as published are
1, 2, …, max-num-publish. -/
def Spec.PartPublishesAsAsked : Prop :=
  ∀ (cfg : PubAppCfg) (a : PartApp) (p : Name), cfg.streams.Nodup → 0 ≤ cfg.maxPublish → cfg.maxPublish < 2 ^ 64 →
    PartAppReach cfg a → p ∈ cfg.streams → scheduled p a.timers = 0 → printedFor p a.published = upTo 1 cfg.maxPublish.toNat

/-- C65 for the example of full sync. -/
def Spec.FullPublishesAsAsked : Prop :=
  ∀ (cfg : PubAppCfg) (a : FullApp) (p : Name), cfg.streams.Nodup → 0 ≤ cfg.maxPublish → cfg.maxPublish < 2 ^ 64 →
    FullAppReach cfg a → p ∈ cfg.streams → scheduled p a.timers = 0 → printedFor p a.published = upTo 1 cfg.maxPublish.toNat

/-- C65, partial sync.  At any moment, whatever Interests arrive: the numbers published for a stream are 1, 2, …, k without a gap or a
repetition, k is the producer's number, and either k is less than the limit and exactly one further update is scheduled, or k is the
limit and none is.  Missing from the full claim: the limit 0, with which one update is published (`c65_zero`). -/
theorem c65_part_partial (cfg : PubAppCfg) (a : PartApp) (p : Name) (hi : cfg.streams.Nodup) (h1 : 1 ≤ cfg.maxPublish)
    (h2 : cfg.maxPublish < 2 ^ 64) (hr : PartAppReach cfg a) (hp : p ∈ cfg.streams) :
    ∃ k, a.prod.base.getSeqNo p = some k ∧ printedFor p a.published = upTo 1 k ∧
      ((k < cfg.maxPublish.toNat ∧ scheduled p a.timers = 1) ∨ (k = cfg.maxPublish.toNat ∧ scheduled p a.timers = 0)) := by
  obtain ⟨k, hk, h3, h4⟩ := (PartApp.reach_inv hi hr).1 p hp
  have hl := PubAppCfg.limit_eq (cfg := cfg) (by omega) h2
  refine ⟨k, hk, h3, ?_⟩
  rcases h4 with ⟨h4, h5⟩ | ⟨h4, h5⟩
  · exact Or.inl ⟨by omega, h4⟩
  · exact Or.inr ⟨by omega, h4⟩

/-- C65, full sync.  At any moment, whatever packets arrive: the numbers published for a stream increase, the producer's number is at
least as large as all of them, at most max(1, limit) updates are published, at most one further update is scheduled, all published
numbers are below the limit as long as one is, and when none is, the number has reached the limit.  Missing from the full claim: the
numbers need not be consecutive, nor all of 1, 2, …, limit (`c65_full_false`). -/
theorem c65_full_partial (cfg : PubAppCfg) (a : FullApp) (p : Name) (hi : cfg.streams.Nodup) (h0 : 0 ≤ cfg.maxPublish)
    (h2 : cfg.maxPublish < 2 ^ 64) (hr : FullAppReach cfg a) (hp : p ∈ cfg.streams) :
    ∃ k, a.prod.base.getSeqNo p = some k ∧ (printedFor p a.published).Pairwise (· < ·) ∧
      (∀ x ∈ printedFor p a.published, 1 ≤ x ∧ x ≤ k) ∧ (printedFor p a.published).length ≤ max 1 cfg.maxPublish.toNat ∧
      ((scheduled p a.timers = 1 ∧ ∀ x ∈ printedFor p a.published, x < cfg.maxPublish.toNat) ∨
       (scheduled p a.timers = 0 ∧ printedFor p a.published ≠ [] ∧ cfg.maxPublish.toNat ≤ k)) := by
  obtain ⟨k, hk, h3, h4, h5⟩ := (FullApp.reach_inv hi hr).1 p hp
  have hl := PubAppCfg.limit_eq h0 h2
  rw [hl] at h5
  refine ⟨k, hk, h3, h4, ?_, h5.imp id (fun h => ⟨h.1, h.2.1, h.2.2.1⟩)⟩
  rcases h5 with h5 | h5
  · have := length_le_of_increasing (n := cfg.maxPublish.toNat) h3 (fun x hx => ⟨(h4 x hx).1, (h5.2 x hx).le⟩)
    omega
  · exact h5.2.2.2

/-- C65.  A scheduled update of the example of partial sync does not throw: `getSeqNo(...).value()` finds a number whenever
`publishName` returns. -/
theorem c65_part_value (cfg : PubAppCfg) (a : PartApp) (p : Name) (ts : List (Nat × Name)) (s : Part)
    (hi : cfg.streams.Nodup) (hr : PartAppReach cfg a) (ht : takeDueName a.prod.now a.timers = some (p, ts))
    (hs : Part.step cfg.pc a.prod (.publishName p none) = .ok s) :
    ∃ a', PartApp.step cfg a .update = .ok a' ∧ a'.prod = s ∧
      ∃ q, s.base.getSeqNo p = some q ∧ a'.published = a.published ++ [(p, q)] := by
  obtain ⟨h1, h2⟩ := PartApp.reach_inv hi hr
  have hp : p ∈ cfg.streams := h2 p (by have := takeDueName_count ht p; rw [if_pos rfl] at this; omega)
  obtain ⟨k, hk, _⟩ := h1 p hp
  have h3 := PartApp.publish_seq hk hs p
  rw [if_pos rfl] at h3
  have h4 := PartApp.doUpdate_ok (cfg := cfg) (a := { a with timers := ts }) hk hs
  refine ⟨_, by simp only [PartApp.step, ht]; exact h4, ?_, _, h3, ?_⟩
  · simp only; split <;> rfl
  · simp only; split <;> rfl

/-- C65.  Nor does one of the example of full sync. -/
theorem c65_full_value (cfg : PubAppCfg) (a : FullApp) (p : Name) (ts : List (Nat × Name)) (b : FullApp)
    (hi : cfg.streams.Nodup) (hr : FullAppReach cfg a) (ht : takeDueName a.prod.now a.timers = some (p, ts))
    (hs : FullApp.produce cfg { a with timers := ts } (.call (.publishName p none)) = .ok b) :
    ∃ a', FullApp.step cfg a .update = .ok a' ∧ a'.prod = b.prod ∧
      ∃ q, b.prod.base.getSeqNo p = some q ∧ a'.published = a.published ++ [(p, q)] := by
  obtain ⟨h1, h2⟩ := FullApp.reach_inv hi hr
  have hp : p ∈ cfg.streams := h2 p (by have := takeDueName_count ht p; rw [if_pos rfl] at this; omega)
  obtain ⟨k, hk, _⟩ := h1 p hp
  have h3 := FullApp.publish_seq (s := a.prod) hk (FullApp.produce_eq hs).1 p
  rw [if_pos rfl] at h3
  have h4 := FullApp.doUpdate_ok (cfg := cfg) (a := { a with timers := ts }) hk hs
  refine ⟨_, by simp only [FullApp.step, ht]; exact h4, ?_, _, h3, ?_⟩
  · simp only; split <;> rfl
  · simp only; split <;> rfl

/-- Two streams. -/
def samplePub (m : Int) : PubAppCfg :=
  { pc := sampleCfg, stream := fun i => pA.appendNumber i, num := 2, maxPublish := m, delay := fun k => k }

/-- The example of partial sync publishes both streams twice; then nothing is scheduled. -/
def partOps : List PartApp.Op := [.prod (.tick 1), .update, .update, .prod (.tick 9), .update, .update]

theorem part_reach {m : Int} {a : PartApp} {ops : List PartApp.Op}
    (h : (Res.bind (PartApp.init (samplePub m)) fun a => PartApp.run (samplePub m) a ops) = .ok a) : PartAppReach (samplePub m) a := by
  rw [Res.bind_eq_ok] at h
  obtain ⟨a0, h0, h1⟩ := h
  exact ⟨a0, ops, h0, h1⟩

theorem full_reach {m : Int} {a : FullApp} {ops : List FullApp.Op}
    (h : (Res.bind (FullApp.init (samplePub m)) fun a => FullApp.run (samplePub m) a ops) = .ok a) : FullAppReach (samplePub m) a := by
  rw [Res.bind_eq_ok] at h
  obtain ⟨a0, h0, h1⟩ := h
  exact ⟨a0, ops, h0, h1⟩

set_option maxRecDepth 100000 in
/-- Non-vacuity for C65, partial sync: after two updates both streams have one more update scheduled, after four none. -/
example : (∃ a, PartAppReach (samplePub 2) a ∧ a.published = [(pA.appendNumber 0, 1), (pA.appendNumber 1, 1)] ∧
      scheduled (pA.appendNumber 0) a.timers = 1) ∧
    ∃ a, PartAppReach (samplePub 2) a ∧ printedFor (pA.appendNumber 1) a.published = [1, 2] ∧ a.timers = [] := by
  have h1 : ((Res.bind (PartApp.init (samplePub 2)) fun a => PartApp.run (samplePub 2) a (partOps.take 3)).get?.map fun a =>
      decide (a.published = [(pA.appendNumber 0, 1), (pA.appendNumber 1, 1)]) && decide (scheduled (pA.appendNumber 0) a.timers = 1))
        = some true := by decide +kernel
  have h2 : ((Res.bind (PartApp.init (samplePub 2)) fun a => PartApp.run (samplePub 2) a partOps).get?.map fun a =>
      decide (printedFor (pA.appendNumber 1) a.published = [1, 2]) && decide (a.timers = [])) = some true := by decide +kernel
  obtain ⟨a, h3, h4⟩ := Res.of_get? h1
  obtain ⟨b, h5, h6⟩ := Res.of_get? h2
  simp only [Bool.and_eq_true, decide_eq_true_eq] at h4 h6
  exact ⟨⟨a, part_reach h3, h4⟩, b, part_reach h5, h6⟩

/-- Non-vacuity for C65: the streams are distinct. -/
example : (samplePub 2).streams.Nodup ∧ pA.appendNumber 1 ∈ (samplePub 2).streams := by decide +kernel

set_option maxRecDepth 100000 in
/-- C65.  With the limit 0 one update of each stream is published. -/
theorem c65_zero : ¬ PartPublishesAsAsked := by
  intro hall
  have h : ((Res.bind (PartApp.init (samplePub 0)) fun a => PartApp.run (samplePub 0) a (partOps.take 3)).get?.map fun a =>
      decide (printedFor (pA.appendNumber 1) a.published = [1]) && decide (scheduled (pA.appendNumber 1) a.timers = 0)) = some true := by
    decide +kernel
  obtain ⟨a, h1, h2⟩ := Res.of_get? h
  simp only [Bool.and_eq_true, decide_eq_true_eq] at h2
  have := hall (samplePub 0) a (pA.appendNumber 1) (by decide +kernel) (by decide) (by decide) (part_reach h1) (by decide +kernel) h2.2
  rw [h2.1] at this
  cases this

/-- The other node knows a larger number of the first stream: a restart, after which the number begins at 0 again. -/
def fullOps : List FullApp.Op := [.prod (.complete (encodeNames [(pA.appendNumber 0).appendNumber 3]) []), .update]

set_option maxRecDepth 100000 in
/-- C65 is false for full sync: an earlier run of the node has published up to 3 and the group still knows it; the stream is
published once, with the number 4, though two publications were asked for. -/
theorem c65_full_false : ¬ FullPublishesAsAsked := by
  intro hall
  have h : ((Res.bind (FullApp.init (samplePub 2)) fun a => FullApp.run (samplePub 2) a fullOps).get?.map fun a =>
      decide (printedFor (pA.appendNumber 0) a.published = [4]) && decide (scheduled (pA.appendNumber 0) a.timers = 0)) = some true := by
    decide +kernel
  obtain ⟨a, h1, h2⟩ := Res.of_get? h
  simp only [Bool.and_eq_true, decide_eq_true_eq] at h2
  have := hall (samplePub 2) a (pA.appendNumber 0) (by decide +kernel) (by decide) (by decide) (full_reach h1) (by decide +kernel) h2.2
  rw [h2.1] at this
  exact absurd this (by decide)

set_option maxRecDepth 100000 in
/-- Non-vacuity for C65, full sync: two publications of the second stream, then none is scheduled. -/
example : ∃ a, FullAppReach (samplePub 2) a ∧ printedFor (pA.appendNumber 1) a.published = [1, 2] ∧
    scheduled (pA.appendNumber 1) a.timers = 0 := by
  have h : ((Res.bind (FullApp.init (samplePub 2)) fun a =>
      FullApp.run (samplePub 2) a [.prod (.tick 9), .update, .update, .prod (.tick 30), .update, .update]).get?.map fun a =>
      decide (printedFor (pA.appendNumber 1) a.published = [1, 2]) && decide (scheduled (pA.appendNumber 1) a.timers = 0)) = some true := by
    decide +kernel
  obtain ⟨a, h1, h2⟩ := Res.of_get? h
  simp only [Bool.and_eq_true, decide_eq_true_eq] at h2
  exact ⟨a, full_reach h1, h2⟩

set_option maxRecDepth 100000 in
/-- Non-vacuity for C64, full sync: a reply announces a range, which is printed; one that ends at the largest uint64_t is reported
to the callback too. -/
example : (∃ a, FullAppReach (samplePub 2) a ∧ a.printed = [(pB, 1), (pB, 2), (pB, 3)]) ∧
    ∃ a s, FullAppReach (samplePub 2) a ∧ Full.step sampleCfg a.prod (.complete (encodeNames [pB.appendNumber (2 ^ 64 - 1)]) []) = .ok s ∧
      updatesOf (s.log.drop a.prod.log.length) = [⟨pB, 1, 2 ^ 64 - 1, 0⟩] := by
  have h1 : ((Res.bind (FullApp.init (samplePub 2)) fun a =>
      FullApp.run (samplePub 2) a [.prod (.complete (encodeNames [pB.appendNumber 3]) [])]).get?.map fun a =>
      decide (a.printed = [(pB, 1), (pB, 2), (pB, 3)])) = some true := by decide +kernel
  have h2 : ((FullApp.init (samplePub 2)).get?.map fun a =>
      ((Full.step sampleCfg a.prod (.complete (encodeNames [pB.appendNumber (2 ^ 64 - 1)]) [])).get?.map fun s =>
        decide (updatesOf (s.log.drop a.prod.log.length) = [⟨pB, 1, 2 ^ 64 - 1, 0⟩]))) = some (some true) := by decide +kernel
  obtain ⟨a, h3, h4⟩ := Res.of_get? h1
  obtain ⟨b, h5, h6⟩ := Res.of_get? h2
  obtain ⟨s, h7, h8⟩ := Res.of_get? h6
  exact ⟨⟨a, full_reach h3, of_decide_eq_true h4⟩, b, s, ⟨b, [], h5, rfl⟩, h7, of_decide_eq_true h8⟩

end PSync
