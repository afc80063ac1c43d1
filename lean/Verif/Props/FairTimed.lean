import Verif.Proofs.FairTimed
import Verif.Props.Fair
/-!
Property C68: with clocks that agree, rounds of sync Interests bring all nodes up to date whatever is in their
segment stores.
-/
namespace PSync
open Spec

section
variable {ι : Type} {cfg : ι → Cfg} {g : Nat → ι → Full} {who : Nat → ι} {what : Nat → Full.Op} {len : Nat}

/-- C68, partial: all nodes have the same syncReplyFreshness, and whenever something happens their clocks differ
by less than 45 ms (by less than 45 ms minus half of the time timers may be late).  Nobody publishes after `t` events, and after that there are more than twice as many rounds as
publications some node has not heard of (counted per node), plus one.  Then every node holds, for every prefix, the
largest number any node held at `t` - whatever old replies the segment stores hold, and whether or not the differences
between the tables decode.
(Missing: different values of syncReplyFreshness, for which the claim is false, `c68_false`; publications of number 0;
runs with removals, hash collisions, two replies of the same version, or numbers that add up to 2^64 or more.) -/
theorem c68_timed_partial [Fintype ι] (hg : IsGroup cfg) (h : GRun cfg g who what len) (hs : Sane cfg (g len))
    (hrem : ∀ k < len, ∀ p, ¬ (what k).Removes p) (hnc : ∀ i, NoCollisionsIn (cfg i).expected (PublishedBy (g len)))
    (hsum : ∀ i, sumSeq (g len i).base.prefixes < 2 ^ 64) (hpos : ∀ p q, PublishedBy (g len) p q → q ≠ 0)
    (hfresh : ∀ i j, (cfg i).freshness = (cfg j).freshness)
    (δ : Nat) (hδ : ∀ i, 2 * δ + (cfg i).lag < 90) (hclock : ∀ n < len, (∀ t, what n ≠ .tick t) → ∀ i j, (g n i).now ≤ (g n j).now + δ)
    (t : Nat) (hstop : ∀ k, t ≤ k → k < len → ∀ p, ¬ (what k).Publishes p)
    (pubs : Finset (Name × Nat)) (hpubs : ∀ p q, PublishedBy (g t) p q → (p, q) ∈ pubs)
    (r : Nat → Nat) (rounds : Nat) (hfirst : t ≤ r 0)
    (hrounds : ∀ k < rounds, Round (fun _ _ => True) g who what (r k) (r (k + 1)))
    (hlast : r rounds ≤ len) (hmany : 2 * (missing (g t) pubs).card + 1 < rounds) (i : ι) (p : Name) :
    (∀ j, numberOf (g t j) p ≤ numberOf (g len i) p) ∧
    (numberOf (g len i) p = 0 ∨ ∃ j, numberOf (g len i) p = numberOf (g t j) p) := by
  have hmono := steps_le (fun k hk => (hrounds k hk).order)
  have hle : ∀ k ≤ rounds, r k ≤ len := fun k hk => le_trans (hmono rounds (le_refl _) k hk) hlast
  have hge : ∀ k ≤ rounds, t ≤ r k := fun k hk => le_trans hfirst (hmono k hk 0 (Nat.zero_le _))
  obtain ⟨k, hk, hquiet⟩ := h.quietStretch hg hs hrem t hstop pubs hpubs (fun k => r (2 * k)) (rounds / 2) hfirst
    (fun k hk => hmono (2 * (k + 1)) (by omega) (2 * k) (by omega)) (hle _ (by omega)) (by omega)
  have e : 2 * (k + 1) = 2 * k + 1 + 1 := by omega
  rw [e] at hquiet
  refine h.converged hg hs hrem (le_trans (hge 0 (Nat.zero_le _)) (hle 0 (Nat.zero_le _))) hstop i (fun j => ?_) p
  refine covers_trans (h.covers hrem (hge (2 * k) (by omega)) (hle (2 * k) (by omega)) j)
    (covers_trans (h.allServed hg hrem hsum (hle (2 * k) (by omega)) (fun j i hji => ?_) j i)
      (h.covers hrem (hle (2 * k) (by omega)) (le_refl _) i))
  exact h.servedTwice hg hs hrem hnc hpos hfresh hδ hclock (hrounds (2 * k + 1) (by omega)).order (hle (2 * k + 1 + 1) (by omega))
    (fun k' h1 h2 => hstop k' (le_trans (hge (2 * k) (by omega)) h1) (lt_of_lt_of_le h2 (hle _ (by omega)))) hquiet
    ((hrounds (2 * k) (by omega)).served j i hji) ((hrounds (2 * k + 1) (by omega)).served j i hji)

end

/-! ### Sample runs -/

/-- Node 0 has /a/1 and node 1 has /a/3.  Node 1 asks, and the reply /a/1 is lost, but stays in the store of
node 0.  Node 0 learns /a/3 and publishes /b/1.  Then there are four rounds; in the first one, node 1 is served /a/1 again. -/
def lostActs : List GAct :=
  [.call 0 (.addUserNode pA), .call 0 (.publishName pA (some 1)), .call 0 (.addUserNode pB),
   .call 1 (.addUserNode pA), .call 1 (.publishName pA (some 3)), .wait 600, .hear 0 1, .ask 1 0, .call 0 (.publishName pB (some 1)),
   .wait 1201, .ask 0 1, .ask 1 0, .wait 2302, .ask 0 1, .ask 1 0, .wait 3403, .ask 0 1, .ask 1 0, .wait 4504, .ask 0 1, .ask 1 0]

/-- In a concrete run, the clocks agree whenever something other than a clock tick happens. -/
def clocksB (cfg : Fin 2 → Cfg) (sts : List (List Full)) (es : List (GEv 2)) : Bool :=
  (List.range es.length).all (fun n => match gwhat es n with
    | .tick _ => true
    | _ => decide ((gat cfg sts n 0).now = (gat cfg sts n 1).now))

theorem clocks_of {cfg : Fin 2 → Cfg} {sts : List (List Full)} {es : List (GEv 2)} (h : clocksB cfg sts es = true) :
    ∀ n < es.length, (∀ t, gwhat es n ≠ .tick t) → ∀ i j, (gat cfg sts n i).now ≤ (gat cfg sts n j).now + 0 := by
  intro n hn hw i j
  unfold clocksB at h
  rw [List.all_eq_true] at h
  have := h n (List.mem_range.mpr hn)
  have he : (gat cfg sts n 0).now = (gat cfg sts n 1).now := by
    cases hop : gwhat es n with
    | tick t => exact absurd hop (hw t)
    | _ => simpa [hop] using this
  match i, j with
  | 0, 0 => omega
  | 0, 1 => omega
  | 1, 0 => omega
  | 1, 1 => omega

def lostEvents : List (GEv 2) := gdriveAll duoCfg lostActs

theorem lost_run : (grun duoCfg lostEvents).map (fun sts =>
    decide ((gat duoCfg sts 98 0).made = [(pA, 1), (pB, 1)]) && decide ((gat duoCfg sts 98 1).made = [(pA, 3)]) &&
    decide (((gat duoCfg sts 98 0).replies.map (·.2.1.length)).all (· < 1000)) &&
    decide (((gat duoCfg sts 98 1).replies.map (·.2.1.length)).all (· < 1000)) &&
    decide ((gat duoCfg sts 98 0).replies.length < 1000) && decide ((gat duoCfg sts 98 1).replies.length < 1000) &&
    roundB (fun _ _ => true) duoCfg sts lostEvents 17 28 22 25 19 27 &&
    roundB (fun _ _ => true) duoCfg sts lostEvents 28 54 48 51 45 53 &&
    roundB (fun _ _ => true) duoCfg sts lostEvents 54 76 62 74 65 75 &&
    roundB (fun _ _ => true) duoCfg sts lostEvents 76 98 84 96 87 97 &&
    decide (sumSeq (gat duoCfg sts 98 0).base.prefixes = 4) && decide (sumSeq (gat duoCfg sts 98 1).base.prefixes = 4) &&
    clocksB duoCfg sts lostEvents &&
    decide ((missing (gat duoCfg sts 17) {(pA, 1), (pA, 3), (pB, 1)}).card = 1) &&
    decide (((gat duoCfg sts 17 0).pub.replyFromStore (lastAsked (gat duoCfg sts 17 1))).isSome = true) &&
    decide (numberOf (gat duoCfg sts 28 1) pB = 0) && decide (numberOf (gat duoCfg sts 98 1) pB = 1))
    = some true := by decide +kernel

theorem lost_shape : (lostEvents.length = 98 ∧ (lostEvents.drop 17).all noPublicationB = true ∧
    lostEvents.all noRemovalB = true) := by decide +kernel

set_option maxRecDepth 4000 in
/-- Non-vacuity for C68: node 1 lacks /b/1, and node 0 has an outdated reply to its Interest in the store.
In the first of four rounds, node 1 gets this reply and learns nothing.  It then waits, and learns /b/1 in the second round. -/
theorem c68_sample : ∃ (g : Nat → Fin 2 → Full) (who : Nat → Fin 2) (what : Nat → Full.Op) (r : Nat → Nat) (n : Name),
    IsGroup duoCfg ∧ GRun duoCfg g who what 98 ∧ Sane duoCfg (g 98) ∧ (∀ k < 98, ∀ p, ¬ (what k).Removes p) ∧
    (∀ i, NoCollisionsIn (duoCfg i).expected (PublishedBy (g 98))) ∧
    (∀ i, sumSeq (g 98 i).base.prefixes < 2 ^ 64) ∧ (∀ p q, PublishedBy (g 98) p q → q ≠ 0) ∧
    (∀ i j, (duoCfg i).freshness = (duoCfg j).freshness) ∧
    (∀ n < 98, (∀ t, what n ≠ .tick t) → ∀ i j, (g n i).now ≤ (g n j).now + 0) ∧
    (∀ k, 17 ≤ k → k < 98 → ∀ p, ¬ (what k).Publishes p) ∧
    (∀ p q, PublishedBy (g 17) p q → (p, q) ∈ ({(pA, 1), (pA, 3), (pB, 1)} : Finset (Name × Nat))) ∧
    17 ≤ r 0 ∧ (∀ k < 4, Round (fun _ _ => True) g who what (r k) (r (k + 1))) ∧ r 4 ≤ 98 ∧
    2 * (missing (g 17) {(pA, 1), (pA, 3), (pB, 1)}).card + 1 < 4 ∧
    ((g 17 0).pub.replyFromStore n).isSome = true ∧ r 1 = 28 ∧ numberOf (g 28 1) pB = 0 ∧ numberOf (g 98 1) pB = 1 := by
  obtain ⟨sts, h1, h2⟩ := Option.of_map lost_run
  simp only [Bool.and_eq_true, decide_eq_true_eq] at h2
  obtain ⟨⟨⟨⟨⟨⟨⟨⟨⟨⟨⟨⟨⟨⟨⟨⟨m0, m1⟩, s0⟩, s1⟩, l0⟩, l1⟩, r1⟩, r2⟩, r3⟩, r4⟩, u0⟩, u1⟩, hc⟩, hm⟩, hst⟩, n28⟩, n98⟩ := h2
  obtain ⟨hl, hp, hr⟩ := lost_shape
  have hrun := grun_sound h1 0
  have hclock := clocks_of hc
  rw [hl] at hrun hclock
  have hpub : ∀ n ≤ 98, ∀ p q, PublishedBy (gat duoCfg sts n) p q → (p, q) ∈ [(pA, 1), (pA, 3), (pB, 1)] := by
    intro n hn p q hpq
    obtain ⟨j, hj⟩ := hrun.published hn (le_refl _) hpq
    match j with
    | 0 => rw [m0] at hj; simp at hj ⊢; tauto
    | 1 => rw [m1] at hj; simp at hj ⊢; tauto
  have hsane : Sane duoCfg (gat duoCfg sts 98) := by
    refine sane_duo (made_valid ?_) (made_valid ?_) (short_of s0) (short_of s1) l0 l1
    · rw [m0]; simp
    · rw [m1]; simp
  refine ⟨gat duoCfg sts, gwho lostEvents 0, gwhat lostEvents, fun k => [17, 28, 54, 76, 98].getD k 0, _, duoCfg_group, hrun, hsane,
    fun k _ p => no_removal hr k p,
    fun i => noCollisionsIn_list (hpub 98 (le_refl _)) (by decide) (by decide +kernel) (by decide +kernel) _, ?_, ?_,
    fun _ _ => rfl, hclock, fun k h4 _ p => no_publication hp k h4 p, ?_, le_refl _, ?_, le_refl _, ?_, hst, rfl, n28, n98⟩
  · exact fin2_forall.mpr ⟨by rw [u0]; decide, by rw [u1]; decide⟩
  · intro p q hpq
    have := hpub 98 (le_refl _) p q hpq
    simp at this
    omega
  · intro p q hpq
    simpa using hpub 17 (by decide) p q hpq
  · intro k hk
    match k, hk with
    | 0, _ => exact (round_of r1).mono (fun _ _ _ => trivial)
    | 1, _ => exact (round_of r2).mono (fun _ _ _ => trivial)
    | 2, _ => exact (round_of r3).mono (fun _ _ _ => trivial)
    | 3, _ => exact (round_of r4).mono (fun _ _ _ => trivial)
  · rw [hm]; decide

/-! ### C68 is false without the same syncReplyFreshness -/

/-- The full claim: as `c68_timed_partial`, whatever values of syncReplyFreshness the nodes use. -/
def Spec.TimedRoundsConverge : Prop :=
  ∀ (n : Nat) (cfg : Fin n → Cfg) (g : Nat → Fin n → Full) (who : Nat → Fin n) (what : Nat → Full.Op) (len t : Nat)
    (pubs : Finset (Name × Nat)) (r : Nat → Nat) (rounds δ : Nat),
    IsGroup cfg → GRun cfg g who what len → Sane cfg (g len) → (∀ k < len, ∀ p, ¬ (what k).Removes p) →
    (∀ i, NoCollisionsIn (cfg i).expected (PublishedBy (g len))) → (∀ i, sumSeq (g len i).base.prefixes < 2 ^ 64) →
    (∀ p q, PublishedBy (g len) p q → q ≠ 0) →
    (∀ i, 2 * δ + (cfg i).lag < 90) → (∀ n < len, (∀ t, what n ≠ .tick t) → ∀ i j, (g n i).now ≤ (g n j).now + δ) →
    (∀ k, t ≤ k → k < len → ∀ p, ¬ (what k).Publishes p) → (∀ p q, PublishedBy (g t) p q → (p, q) ∈ pubs) →
    t ≤ r 0 → (∀ k < rounds, Round (fun _ _ => True) g who what (r k) (r (k + 1))) → r rounds ≤ len →
    2 * (missing (g t) pubs).card + 1 < rounds → ∀ i j p, numberOf (g t j) p ≤ numberOf (g len i) p

def slowEvents : List (GEv 2) := gdriveAll slowCfg lostActs

theorem slow_run : (grun slowCfg slowEvents).map (fun sts =>
    decide ((gat slowCfg sts 91 0).made = [(pA, 1), (pB, 1)]) && decide ((gat slowCfg sts 91 1).made = [(pA, 3)]) &&
    decide (((gat slowCfg sts 91 0).replies.map (·.2.1.length)).all (· < 1000)) &&
    decide (((gat slowCfg sts 91 1).replies.map (·.2.1.length)).all (· < 1000)) &&
    decide ((gat slowCfg sts 91 0).replies.length < 1000) && decide ((gat slowCfg sts 91 1).replies.length < 1000) &&
    roundB (fun _ _ => true) slowCfg sts slowEvents 17 28 22 25 19 27 &&
    roundB (fun _ _ => true) slowCfg sts slowEvents 28 51 45 48 42 50 &&
    roundB (fun _ _ => true) slowCfg sts slowEvents 51 71 65 68 62 70 &&
    roundB (fun _ _ => true) slowCfg sts slowEvents 71 91 85 88 82 90 &&
    decide (sumSeq (gat slowCfg sts 91 0).base.prefixes = 4) && decide (sumSeq (gat slowCfg sts 91 1).base.prefixes = 3) &&
    clocksB slowCfg sts slowEvents &&
    decide ((missing (gat slowCfg sts 17) {(pA, 1), (pA, 3), (pB, 1)}).card = 1) &&
    decide (numberOf (gat slowCfg sts 17 0) pB = 1) && decide (numberOf (gat slowCfg sts 91 1) pB = 0))
    = some true := by decide +kernel

theorem slow_shape : (slowEvents.length = 91 ∧ (slowEvents.drop 17).all noPublicationB = true ∧
    slowEvents.all noRemovalB = true) := by decide +kernel

set_option maxRecDepth 4000 in
/-- C68 is false as stated: the replies of node 0 stay in its store for a minute, and node 1 waits only a second. -/
theorem c68_false : ¬ Spec.TimedRoundsConverge := by
  intro hclaim
  obtain ⟨sts, h1, h2⟩ := Option.of_map slow_run
  simp only [Bool.and_eq_true, decide_eq_true_eq] at h2
  obtain ⟨⟨⟨⟨⟨⟨⟨⟨⟨⟨⟨⟨⟨⟨⟨m0, m1⟩, s0⟩, s1⟩, l0⟩, l1⟩, r1⟩, r2⟩, r3⟩, r4⟩, u0⟩, u1⟩, hc⟩, hm⟩, n17⟩, n91⟩ := h2
  obtain ⟨hl, hp, hr⟩ := slow_shape
  have hrun := grun_sound h1 0
  have hclock := clocks_of hc
  rw [hl] at hrun hclock
  have hpub : ∀ n ≤ 91, ∀ p q, PublishedBy (gat slowCfg sts n) p q → (p, q) ∈ [(pA, 1), (pA, 3), (pB, 1)] := by
    intro n hn p q hpq
    obtain ⟨j, hj⟩ := hrun.published hn (le_refl _) hpq
    match j with
    | 0 => rw [m0] at hj; simp at hj ⊢; tauto
    | 1 => rw [m1] at hj; simp at hj ⊢; tauto
  have hsane : Sane duoCfg (gat slowCfg sts 91) := by
    refine sane_duo (made_valid ?_) (made_valid ?_) (short_of s0) (short_of s1) l0 l1
    · rw [m0]; simp
    · rw [m1]; simp
  have := hclaim 2 slowCfg (gat slowCfg sts) (gwho slowEvents 0) (gwhat slowEvents) 91 17 {(pA, 1), (pA, 3), (pB, 1)}
    (fun k => [17, 28, 51, 71, 91].getD k 0) 4 0
    ⟨fun _ _ => ⟨rfl, rfl, rfl, rfl⟩, fun i => ⟨(duoCfg_group.wf i).jitter_lo, (duoCfg_group.wf i).jitter_hi,
      none_lossless, none_lossless⟩, fun i => duoCfg_group.expected i⟩
    hrun ⟨⟨hsane.names, hsane.buffers, hsane.version_lt⟩, hsane.versions⟩ (fun k _ p => no_removal hr k p)
    (fun i => noCollisionsIn_list (hpub 91 (le_refl _)) (by decide) (by decide +kernel) (by decide +kernel) _)
    (fin2_forall.mpr ⟨by rw [u0]; decide, by rw [u1]; decide⟩)
    (fun p q hpq => by have := hpub 91 (le_refl _) p q hpq; simp at this; omega) (by decide) hclock
    (fun k h4 _ p => no_publication hp k h4 p)
    (fun p q hpq => by simpa using hpub 17 (by decide) p q hpq) (le_refl _)
    (fun k hk => match k, hk with
      | 0, _ => (round_of r1).mono (fun _ _ _ => trivial)
      | 1, _ => (round_of r2).mono (fun _ _ _ => trivial)
      | 2, _ => (round_of r3).mono (fun _ _ _ => trivial)
      | 3, _ => (round_of r4).mono (fun _ _ _ => trivial)) (le_refl _) (by rw [hm]; decide) 1 0 pB
  rw [n17, n91] at this
  exact absurd this (by decide)

end PSync
