import Verif.Props.Told
import Verif.Props.Consumer
/-!
C119: a subscriber that is up to date with a prefix is left alone until the prefix is published again.
-/
namespace PSync
open Spec

variable {pc : Cfg} {cc : CCfg} {P : Nat → Part} {C : Nat → Cons} {what : Nat → PSEv} {len : Nat}

/-- The events of a run at the consumer between two moments, one after the other. -/
theorem consumer_span (h : PSRun pc cc P C what len) {t n : Nat} (htn : t ≤ n) (hn : n ≤ len) :
    ∃ ops, Cons.run cc (C t) ops = .ok (C n) ∧ ∀ op ∈ ops, ∃ k, t ≤ k ∧ k < n ∧ what k = .cons op := by
  induction n, htn using Nat.le_induction with
  | base => exact ⟨[], rfl, fun op hop => by cases hop⟩
  | succ n htn ih =>
    obtain ⟨ops, h1, h2⟩ := ih (by omega)
    have up : ∀ op ∈ ops, ∃ k, t ≤ k ∧ k < n + 1 ∧ what k = .cons op := fun op hop => by
      obtain ⟨k, a, b, c⟩ := h2 op hop
      exact ⟨k, a, by omega, c⟩
    cases h.step n (by omega) with
    | prod op _ _ hc => exact ⟨ops, by rw [hc]; exact h1, up⟩
    | cons op hw hs _ _ _ =>
      refine ⟨ops ++ [op], ?_, ?_⟩
      · unfold Cons.run at h1 ⊢
        rw [foldRes_append, h1]
        simp only [Res.ok_bind, foldRes, hs]
      · intro o ho
        rcases List.mem_append.mp ho with ho | ho
        · exact up o ho
        · rw [List.mem_singleton.mp ho]
          exact ⟨n, htn, by omega, hw⟩

theorem consumer_reach (h : PSRun pc cc P C what len) {t : Nat} (ht : t ≤ len) : Cons.Reach cc (C t) := by
  obtain ⟨ops, h1, _⟩ := consumer_span h (Nat.zero_le t) ht
  exact ⟨C 0, ops, h.initC, h1⟩

theorem tiles_nothing {x y : Nat} {l : List (Nat × Nat)} (h : Tiles x l y) (hy : y ≤ x) (hne : ∀ r ∈ l, r.1 ≤ r.2) : l = [] := by
  cases h with
  | nil => rfl
  | cons c l hle ht =>
    have h1 := hne _ (List.mem_cons_self ..)
    have h2 := ht.le
    simp only at h1
    omega

/-- C119: if the number that a consumer had for a prefix at some moment `t` is still the number of the producer at a later moment `n`, then in
between the update callback was told nothing of the prefix, and the consumer still has the number: whatever replies arrived, however old, and
whatever hello Interests, timeouts, nacks and other subscriptions there were.  (The prefix is not removed at the producer or unsubscribed at
the consumer, and the numbers that the application gave when it subscribed are numbers that the producer had.) -/
theorem c119_left_alone (h : PSRun pc cc P C what len) (hm : Matching pc cc) (hr : Regular pc P what len) (t n : Nat) (htn : t ≤ n) (hn : n ≤ len)
    (p : Name) (hrem : ∀ k < n, what k ≠ .prod (.removeUserNode p)) (hgiven : ∀ q, Given what n p q → q = 0 ∨ Was P n p q)
    (hno : ∀ k, t ≤ k → k < n → ∀ op, what k = .cons op → Cons.Call.removeSubscription p ∉ callsIn op)
    (x : Nat) (hx : (C t).getSeqNo p = some x) (hp : (P n).base.getSeqNo p = some x) :
    (C n).getSeqNo p = some x ∧ ∃ ext, (C n).log = (C t).log ++ ext ∧ notified p ext = [] := by
  obtain ⟨ops, h1, h2⟩ := consumer_span h htn hn
  obtain ⟨ext, y, e1, e2, e3, e4, e5⟩ := c46_ranges cc (C t) (C n) (consumer_reach h (by omega)) p x hx ops
    (fun op hop => by
      obtain ⟨k, a, b, c⟩ := h2 op hop
      exact hno k a b op c) h1
  have hle : y ≤ x := c75_not_ahead h hm hr n hn p hrem hgiven y e2 x hp
  have : y = x := by omega
  subst this
  exact ⟨e2, ext, e1, tiles_nothing e4 (le_refl _) e5⟩

/-- The run of C45's example, and then another hello reply, which the producer takes from its store: it lists /a with an old number. -/
def againScript : List Act := steadyScript ++ [.cons (.call .sendHello), .ask, .helloPkt, .helloDone [] []]

/-- The hello callbacks in a log. -/
def helloCount (log : List Out) : Nat := log.countP (fun o => match o with | .hello _ => true | _ => false)

set_option maxRecDepth 100000 in
/-- Non-vacuity for C119: after 13 events the consumer knows /a's number 1, which the producer still has after 18 events; in between the
consumer has processed an outdated hello reply. -/
example : ∃ (P : Nat → Part) (C : Nat → Cons) (what : Nat → PSEv),
    PSRun sampleCfg sampleCCfg P C what 18 ∧ Matching sampleCfg sampleCCfg ∧ Regular sampleCfg P what 18 ∧
      (C 13).getSeqNo pA = some 1 ∧ (P 18).base.getSeqNo pA = some 1 ∧ helloCount (C 13).log = 1 ∧ helloCount (C 18).log = 2 := by
  have hx : ((psrun sampleCfg sampleCCfg againScript).map fun r =>
      regularB r 18 [(pA, 1), (pB, 1)] && decide ((psat r 13).2.getSeqNo pA = some 1) && decide ((psat r 18).1.base.getSeqNo pA = some 1) &&
      decide (helloCount (psat r 13).2.log = 1) && decide (helloCount (psat r 18).2.log = 2)) = some true := by decide +kernel
  obtain ⟨r, hr, hb⟩ := Option.of_map hx
  simp only [Bool.and_eq_true, decide_eq_true_eq] at hb
  obtain ⟨⟨⟨⟨h1, h2⟩, h3⟩, h4⟩, h5⟩ := hb
  exact ⟨_, _, _, psrun_sound hr, sample_matching, regular_of h1 (by decide) (by decide +kernel), h2, h3, h4, h5⟩

end PSync
