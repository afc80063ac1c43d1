import Verif.Proofs.PubSubPrompt
import Verif.Props.PubSub
import Verif.Props.FairPrompt
/-!
Property C83: a subscriber learns of a publication within a bounded time.
-/
namespace PSync
open Spec

section
variable {pc : Cfg} {cc : CCfg} {P : Nat → Part} {C : Nat → Cons} {what : Nat → PSEv} {len : Nat}

/-- C83: from event `n0` on, when neither clock shows more than `X`, packets take at most `Δ` ms.  The
clocks differ by at most `δ`, no fetch goes on for more than `L` ms, and the application asks for a sync in every hello
callback.  Then the consumer gets up to date with the producer's table after event `n0` before its clock shows more than
`X` + max(freshness, helloFreshness) + δ + 2L + 500 + 2Δ ms (plus the times timers may be late), whatever was lost before and
whatever is in the segment store. -/
theorem c83_time (h : PSRun pc cc P C what len) (hm : Matching pc cc) (hr : Regular pc P what len) (hc : Careful pc P C what len)
    (hrem : ∀ k < len, ∀ p, what k ≠ .prod (.removeUserNode p)) (hj : ∀ n, cc.jitter n ≤ 500)
    (hk : ∀ n < len, ∀ op, what n = .cons op → KeepsGoing [op]) (L : Nat) (hL : FetchesEnd cc L C len)
    (δ : Nat) (hclock : ∀ n < len, ∀ i, what n = .prod (.recvInterest i) → (C n).now ≤ (P n).now + δ)
    (b n0 : Nat) (hb : what b = .cons (.call .sendHello)) (hbn : b < n0) (hn0 : n0 ≤ len)
    (X : Nat) (hX : (P n0).now ≤ X ∧ (C n0).now ≤ X) (Δ : Nat) (hp : PSPrompt cc Δ P C what n0 len)
    (T : Nat) (hT : T = X + max pc.freshness pc.helloFreshness + pc.lag + δ + (2 * L + 500 + cc.lag) + 2 * Δ)
    (hlong : T < (C len).now) : ∃ n, n0 ≤ n ∧ n ≤ len ∧ (C n).now ≤ T ∧ UpToDate (C n) (P n0) := by
  obtain ⟨k, k1, k2, k3, k4, name, k5⟩ := h.asksIn hj hk hL hb hbn hn0
    (T := X + max pc.freshness pc.helloFreshness + pc.lag + δ) (by omega) (by omega)
  rcases h.asks_new k2 k5 with h1 | h1
  · obtain ⟨n, n1, n2, n3, n4⟩ := h.helloExchange hm hr hc hrem hn0 hX.1 hclock k3 (hp.hello k k1 k2 h1 (by omega))
    exact ⟨n, by omega, n2, by omega, n4⟩
  · obtain ⟨n, n1, n2, n3, n4⟩ := h.syncExchange hm hr hc hrem hn0 hX.1 hclock hp k1 k2 k3 (by omega) h1
    exact ⟨n, by omega, n2, by omega, n4⟩

/-- C83, what the application sees: it keeps its subscription to `p`, for which the consumer has number `x0` after event
`n0` and the producer number `x`.  Before the same time is over it has been told, in ranges without gap or overlap, of all
numbers from `x0 + 1` up to some `y` that is at least `x`. -/
theorem c83_told (h : PSRun pc cc P C what len) (hm : Matching pc cc) (hr : Regular pc P what len) (hc : Careful pc P C what len)
    (hrem : ∀ k < len, ∀ p, what k ≠ .prod (.removeUserNode p)) (hj : ∀ n, cc.jitter n ≤ 500)
    (hk : ∀ n < len, ∀ op, what n = .cons op → KeepsGoing [op]) (L : Nat) (hL : FetchesEnd cc L C len)
    (δ : Nat) (hclock : ∀ n < len, ∀ i, what n = .prod (.recvInterest i) → (C n).now ≤ (P n).now + δ)
    (b n0 : Nat) (hb : what b = .cons (.call .sendHello)) (hbn : b < n0) (hn0 : n0 ≤ len)
    (X : Nat) (hX : (P n0).now ≤ X ∧ (C n0).now ≤ X) (Δ : Nat) (hp : PSPrompt cc Δ P C what n0 len)
    (T : Nat) (hT : T = X + max pc.freshness pc.helloFreshness + pc.lag + δ + (2 * L + 500 + cc.lag) + 2 * Δ)
    (hlong : T < (C len).now) (p : Name) (x x0 : Nat) (hx : (P n0).base.getSeqNo p = some x)
    (hsub : (C n0).isSubscribed p = true) (hx0 : (C n0).getSeqNo p = some x0)
    (hkeep : ∀ k, n0 ≤ k → k < len → ∀ op, what k = .cons op → ∀ c ∈ callsIn op,
      c ≠ .removeSubscription p ∧ ∀ q cb, c ≠ .addSubscription p q cb) :
    ∃ n ext y, n0 ≤ n ∧ n ≤ len ∧ (C n).now ≤ T ∧ (C n).log = (C n0).log ++ ext ∧ (C n).getSeqNo p = some y ∧ x ≤ y ∧
      Tiles x0 (notified p ext) y := by
  obtain ⟨n, h1, h2, h3, h4⟩ := c83_time h hm hr hc hrem hj hk L hL δ hclock b n0 hb hbn hn0 X hX Δ hp T hT hlong
  have hrun := h.asCRun.stretch h1 h2
  have hno : ∀ op ∈ (List.range' n0 (n - n0)).map (PSRun.consOp what), ∀ c ∈ callsIn op,
      c ≠ .removeSubscription p ∧ ∀ q cb, c ≠ .addSubscription p q cb := by
    intro op hop c hc
    simp only [List.mem_map, List.mem_range'_1] at hop
    obtain ⟨k, ⟨k1, k2⟩, rfl⟩ := hop
    cases hw : what k with
    | prod o => simp [PSRun.consOp, hw, callsIn] at hc
    | cons o =>
      simp only [PSRun.consOp, hw] at hc
      exact hkeep k k1 (by omega) o hw c hc
  have hsub' := c47_reflects cc (C n0) (C n) _ p hno hrun
  rw [hsub] at hsub'
  obtain ⟨y, h5, h6⟩ := h4 p x hsub' hx
  have hreach : Cons.Reach cc (C n0) := ⟨C 0, _, h.initC, h.asCRun.stretch (Nat.zero_le _) hn0⟩
  obtain ⟨ext, y', e1, e2, _, e3, _⟩ := c46_ranges cc (C n0) (C n) hreach p x0 hx0 _
    (fun op hop hmem => (hno op hop _ hmem).1 rfl) hrun
  rw [h5, Option.some.injEq] at e2
  subst e2
  exact ⟨n, ext, y, h1, h2, h3, e1, h5, h6, e3⟩

end

/-! ### Sample run -/

theorem pace_matching : Matching sampleCfg paceCfg := ⟨rfl, rfl, rfl, by decide, sample_matching.filter, ⟨1, rfl, by decide, rfl⟩,
  by decide, none_lossless⟩

/-- The reply to the waiting Interest that event 7 causes is lost.  From then on packets take no time; the consumer's
Interests time out after 400 ms. -/
def promptScript : List Act :=
  [.prod (.addUserNode pA), .cons (.call (.addSubscription pA 0 false)), .cons (.call .sendHello), .ask, .helloPkt,
   .helloDone [.sendSync] [], .ask, .prod (.publishName pA none),
   .prod (.tick 400), .cons (.tick 400), .cons (.syncError true), .ask, .syncPkt, .syncDone [], .ask,
   .prod (.tick 800), .cons (.tick 800), .cons (.syncError true), .ask,
   .prod (.tick 1000), .prod .fireStore, .prod (.tick 1200), .cons (.tick 1200), .cons (.syncError true), .ask,
   .prod (.tick 1600), .cons (.tick 1600), .cons (.syncError true), .ask,
   .prod (.tick 2000), .cons (.tick 2000), .cons (.syncError true), .ask, .prod (.tick 2301), .cons (.tick 2301)]

/-- Packets take no time: the next event is the reception of the Interest, and the two after that complete the fetch if
there is a reply. -/
def exchangedB (r : List ((Part × Cons) × PSEv) × (Part × Cons)) (len : Nat) (pre : Name) (active : Cons → Bool)
    (seg : PSEv → Option Data) (done : PSEv → Bool) (k : Nat) : Bool :=
  decide (askedUnder pre (psat r k).2.log = askedUnder pre (psat r (k + 1)).2.log) || decide ((psat r len).2.now ≤ (psat r k).2.now) ||
  (decide (k + 1 < len) &&
   (match pswhat r (k + 1) with
    | .prod (.recvInterest i) => decide ((askedUnder pre (psat r (k + 1)).2.log).getLast? = some i.name)
    | _ => false) && active (psat r (k + 1)).2 && decide ((psat r (k + 1)).2.now ≤ (psat r k).2.now) &&
   (match dataOf ((psat r (k + 2)).1.log.drop (psat r (k + 1)).1.log.length) with
    | [] => true
    | [d] => decide (k + 3 < len) && decide (seg (pswhat r (k + 2)) = some d) && done (pswhat r (k + 3)) && active (psat r (k + 3)).2 &&
        decide (askedUnder pre (psat r (k + 3)).2.log = askedUnder pre (psat r (k + 1)).2.log) &&
        decide ((psat r (k + 3)).2.now ≤ (psat r k).2.now)
    | _ => false))

theorem exchanged_of {r : List ((Part × Cons) × PSEv) × (Part × Cons)} {len : Nat} {pre : Name} {active : Cons → Bool}
    {segOf : PSEv → Option Data} {doneOf : PSEv → Bool} {seg : Data → Cons.Op} {done : Cons.Op → Prop}
    (hseg : ∀ e d, segOf e = some d ↔ e = .cons (seg d)) (hdone : ∀ e, doneOf e = true → ∃ op, e = .cons op ∧ done op) {k : Nat}
    (h : exchangedB r len pre active segOf doneOf k = true)
    (hne : askedUnder pre (psat r k).2.log ≠ askedUnder pre (psat r (k + 1)).2.log) (hlt : (psat r k).2.now + 0 < (psat r len).2.now) :
    Exchanged 0 (fun n => (psat r n).1) (fun n => (psat r n).2) (pswhat r) len pre (fun s => active s = true) seg done k := by
  unfold exchangedB at h
  simp only [Bool.or_eq_true, Bool.and_eq_true, decide_eq_true_eq, hne, false_or] at h
  rcases h with h | ⟨⟨⟨⟨h1, h2⟩, h3⟩, h4⟩, h5⟩
  · omega
  split at h2
  swap
  · cases h2
  rename_i i hi
  refine ⟨k + 1, i, Nat.lt_succ_self _, h1, hi, of_decide_eq_true h2, h3, rfl, by simpa using h4, fun d hd => ?_⟩
  have hd' := mem_dataOf_iff.mpr hd
  split at h5
  · rename_i he; rw [he] at hd'; cases hd'
  · rename_i d' he
    rw [he] at hd'
    simp only [List.mem_singleton] at hd'
    subst hd'
    simp only [Bool.and_eq_true, decide_eq_true_eq] at h5
    obtain ⟨⟨⟨⟨⟨g1, g2⟩, g3⟩, g4⟩, g5⟩, g6⟩ := h5
    obtain ⟨op, g7, g8⟩ := hdone _ g3
    exact ⟨k + 2, k + 3, op, by omega, by omega, g1, (hseg _ _).mp g2, g7, g8, g4, g5, by simpa using g6⟩
  · cases h5

def isHelloDone : PSEv → Bool
  | .cons (.helloComplete _ _ _) => true
  | _ => false
def isSyncDone : PSEv → Bool
  | .cons (.syncComplete _ _) => true
  | _ => false

/-- The checks for `FetchesEnd`. -/
def psEndsB (cfg : CCfg) (L : Nat) (r : List ((Part × Cons) × PSEv) × (Part × Cons)) (len : Nat) : Bool :=
  cendsB cfg L r.2.2 ((List.range (len + 1)).map fun n => (psat r n).2) len

theorem psEnds_of {cfg : CCfg} {L len : Nat} {r : List ((Part × Cons) × PSEv) × (Part × Cons)} (h : psEndsB cfg L r len = true) :
    FetchesEnd cfg L (fun n => (psat r n).2) len := by
  have h1 := cends_of h
  have e : ∀ n ≤ len, cat r.2.2 ((List.range (len + 1)).map fun n => (psat r n).2) n = (psat r n).2 := by
    intro n hn
    unfold cat
    rw [List.getElem?_map, List.getElem?_range (by omega)]
    rfl
  refine ⟨fun m n hmn hn hact he => ?_, fun m n hmn hn hact he => ?_⟩
  · have := h1.hello m n hmn hn (fun k k1 k2 => by rw [e k (by omega)]; exact hact k k1 k2) (by rw [e m (by omega), e n hn]; exact he)
    rwa [e m (by omega), e n hn] at this
  · have := h1.sync m n hmn hn (fun k k1 k2 => by rw [e k (by omega)]; exact hact k k1 k2) (by rw [e m (by omega), e n hn]; exact he)
    rwa [e m (by omega), e n hn] at this

def keepsB : PSEv → Bool
  | .cons op => decide (Cons.Call.stop ∉ callsIn op) && (match op with
    | .helloComplete _ a1 _ => decide (Cons.Call.sendSync ∈ a1)
    | _ => true)
  | .prod _ => true

/-- All conditions of C83 on the events. -/
def promptAllB (r : List ((Part × Cons) × PSEv) × (Part × Cons)) : Bool :=
  carefulB r 35 && regularB r 35 [(pA, 1)] && psEndsB paceCfg 400 r 35 &&
  (List.range 35).all (fun k => keepsB (pswhat r k) &&
    (match pswhat r k with
      | .prod (.removeUserNode _) => false
      | .prod (.recvInterest _) => decide ((psat r k).2.now ≤ (psat r k).1.now)
      | .cons op => decide (k < 8) || (callsIn op).all (fun c => match c with
        | .sendSync => true
        | _ => false)
      | _ => true) &&
    (decide (k < 8) || (exchangedB r 35 (paceCfg.syncPrefix ++ [HELLO]) (fun s => decide (s.helloFetcher = some true)) helloSegOf isHelloDone k &&
      exchangedB r 35 (paceCfg.syncPrefix ++ [SYNC]) (fun s => decide (s.syncFetcher = some true)) syncSegOf isSyncDone k))) &&
  decide (pswhat r 2 = .cons (.call .sendHello)) && decide ((psat r 8).1.now = 0) && decide ((psat r 8).2.now = 0) &&
  decide ((psat r 35).2.now = 2301) && decide ((psat r 8).1.base.getSeqNo pA = some 1) && (psat r 8).2.isSubscribed pA &&
  decide ((psat r 8).2.getSeqNo pA = some 0)

set_option maxRecDepth 100000 in
theorem prompt_checked : ((psrun sampleCfg paceCfg promptScript).map promptAllB) = some true := by decide +kernel

/-- Non-vacuity for C83: at event 8 the producer has number 1 for /a and the consumer 0, and the reply is lost; the run reaches
the time at which C83 says that the consumer has it. -/
theorem c83_sample : ∃ (P : Nat → Part) (C : Nat → Cons) (what : Nat → PSEv),
    PSRun sampleCfg paceCfg P C what 35 ∧ Matching sampleCfg paceCfg ∧ Regular sampleCfg P what 35 ∧ Careful sampleCfg P C what 35 ∧
    (∀ k < 35, ∀ p, what k ≠ .prod (.removeUserNode p)) ∧ (∀ n, paceCfg.jitter n ≤ 500) ∧
    (∀ n < 35, ∀ op, what n = .cons op → KeepsGoing [op]) ∧ FetchesEnd paceCfg 400 C 35 ∧
    (∀ n < 35, ∀ i, what n = .prod (.recvInterest i) → (C n).now ≤ (P n).now + 0) ∧ what 2 = .cons (.call .sendHello) ∧
    ((P 8).now ≤ 0 ∧ (C 8).now ≤ 0) ∧ PSPrompt paceCfg 0 P C what 8 35 ∧
    0 + max sampleCfg.freshness sampleCfg.helloFreshness + sampleCfg.lag + 0 + (2 * 400 + 500 + paceCfg.lag) + 2 * 0 < (C 35).now ∧
    (P 8).base.getSeqNo pA = some 1 ∧ (C 8).isSubscribed pA = true ∧ (C 8).getSeqNo pA = some 0 ∧
    (∀ k, 8 ≤ k → k < 35 → ∀ op, what k = .cons op → ∀ c ∈ callsIn op,
      c ≠ .removeSubscription pA ∧ ∀ q cb, c ≠ .addSubscription pA q cb) := by
  obtain ⟨r, hr, hb⟩ := Option.of_map prompt_checked
  unfold promptAllB at hb
  simp only [Bool.and_eq_true, decide_eq_true_eq, List.all_eq_true, List.mem_range] at hb
  obtain ⟨⟨⟨⟨⟨⟨⟨⟨⟨⟨h1, h2⟩, h3⟩, h4⟩, h5⟩, h6⟩, h7⟩, h8⟩, h9⟩, h10⟩, h11⟩ := hb
  refine ⟨_, _, _, psrun_sound hr, pace_matching, regular_of h2 (by decide) (by decide +kernel), careful_of h1, ?_, fun _ => by simp [paceCfg],
    ?_, psEnds_of h3, ?_, h5, ⟨by omega, by omega⟩, ⟨?_, ?_⟩, ?_, h9, h10, h11, ?_⟩
  · intro k hk p hw
    have := (h4 k hk).1.2
    rw [hw] at this
    cases this
  · intro k hk op hw
    have h12 := (h4 k hk).1.1
    rw [hw] at h12
    constructor
    · intro buf a1 a2 hm
      simp only [List.mem_singleton] at hm
      subst hm
      simp only [keepsB, Bool.and_eq_true, decide_eq_true_eq] at h12
      exact h12.2
    · intro o ho
      simp only [List.mem_singleton] at ho
      subst ho
      simp only [keepsB, Bool.and_eq_true, decide_eq_true_eq] at h12
      exact h12.1
  · intro k hk i hw
    have h12 := (h4 k hk).1.2
    rw [hw] at h12
    have := of_decide_eq_true h12
    omega
  · intro k hk0 hk hne hlt
    have h12 := (h4 k hk).2
    simp only [Bool.or_eq_true, decide_eq_true_eq, Bool.and_eq_true, show ¬ k < 8 by omega, false_or] at h12
    have := exchanged_of (seg := .helloSegment) (done := fun op => ∃ buf a1 a2, op = .helloComplete buf a1 a2)
      helloSegOf_iff (fun e he => by unfold isHelloDone at he; split at he; exacts [⟨_, rfl, _, _, _, rfl⟩, by cases he]) h12.1 hne hlt
    simpa using this
  · intro k hk0 hk hne hlt
    have h12 := (h4 k hk).2
    simp only [Bool.or_eq_true, decide_eq_true_eq, Bool.and_eq_true, show ¬ k < 8 by omega, false_or] at h12
    have := exchanged_of (seg := .syncSegment) (done := fun op => ∃ buf acts, op = .syncComplete buf acts)
      syncSegOf_iff (fun e he => by unfold isSyncDone at he; split at he; exacts [⟨_, rfl, _, _, rfl⟩, by cases he]) h12.2 hne hlt
    simpa using this
  · rw [h8]; decide
  · intro k hk0 hk op hw c hc
    have h12 := (h4 k hk).1.2
    rw [hw] at h12
    simp only [Bool.or_eq_true, decide_eq_true_eq, show ¬ k < 8 by omega, false_or, List.all_eq_true] at h12
    have := h12 c hc
    split at this
    · exact ⟨by simp, by simp⟩
    · cases this

end PSync
