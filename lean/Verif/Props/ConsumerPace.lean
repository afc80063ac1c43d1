import Verif.Proofs.ConsumerPace
/-!
Property C82: a consumer asks again in time.
-/
namespace PSync
open Spec

/-- C82: a consumer that has sent a hello Interest, was not stopped, and whose application asks for a sync in every hello callback
never keeps silent for more than `2 * L + 500` ms (plus the time timers may be late), if no fetch of it goes on for
more than `L` ms. -/
theorem c82_pace (cfg : CCfg) (C : Nat → Cons) (what : Nat → Cons.Op) (len : Nat) (h : CRun cfg C what len)
    (hj : ∀ n, cfg.jitter n ≤ 500) (hk : ∀ n < len, KeepsGoing [what n]) (L : Nat) (hL : FetchesEnd cfg L C len)
    (b : Nat) (hb : what b = .call .sendHello) (m n : Nat) (hbm : b < m) (hmn : m ≤ n) (hn : n ≤ len)
    (hlong : (C m).now + 2 * L + 500 + cfg.lag < (C n).now) : ∃ k name, m ≤ k ∧ k < n ∧ Asks1 C k name := by
  by_contra hno
  have hq : CRun.Mute C m n := fun k h1 h2 name ha => hno ⟨k, name, h1, h2, ha⟩
  have hbusy : Busy (C (b + 1)) := by
    have hs := h.step b (by omega)
    rw [hb] at hs
    simp only [Cons.step, Cons.call, Res.ok.injEq] at hs
    rw [← hs]
    left
    rfl
  have := h.mute hj hk hL hmn hn hq (h.busy hk (m := b + 1) (by omega) (by omega) hbusy)
  omega

/-! ### Sample run -/

/-- The states of a consumer, one per event. -/
def cscan (cfg : CCfg) : Cons → List Cons.Op → Option (List Cons)
  | s, [] => some [s]
  | s, op :: ops => match Cons.step cfg s op with
    | .ok s' => (cscan cfg s' ops).map (s :: ·)
    | _ => none

theorem cscan_step {cfg : CCfg} : ∀ {ops : List Cons.Op} {s : Cons} {sts : List Cons}, cscan cfg s ops = some sts →
    sts[0]? = some s ∧ ∀ n op, ops[n]? = some op → ∃ a b, sts[n]? = some a ∧ sts[n + 1]? = some b ∧ Cons.step cfg a op = .ok b
  | [], s, sts, h => by
    simp only [cscan, Option.some.injEq] at h
    subst h
    simp
  | op :: ops, s, sts, h => by
    simp only [cscan] at h
    split at h
    · rename_i s' hs
      rw [Option.map_eq_some_iff] at h
      obtain ⟨l, h1, rfl⟩ := h
      obtain ⟨h2, h3⟩ := cscan_step h1
      refine ⟨rfl, fun n o ho => ?_⟩
      cases n with
      | zero =>
        simp only [List.getElem?_cons_zero, Option.some.injEq] at ho
        subst ho
        exact ⟨s, s', rfl, by simpa using h2, hs⟩
      | succ n =>
        simp only [List.getElem?_cons_succ] at ho ⊢
        exact h3 n o ho
    · cases h

/-- The state after `n` events and the event after that. -/
def cat (s0 : Cons) (sts : List Cons) (n : Nat) : Cons := (sts[n]?).getD s0
def cwhat (ops : List Cons.Op) (n : Nat) : Cons.Op := (ops[n]?).getD .fire

/-- The checks for `CRun.final` and `FetchesEnd`. -/
def cfinalB (cfg : CCfg) (s0 : Cons) (sts : List Cons) (ops : List Cons.Op) : Bool :=
  (List.range ops.length).all fun n => match cwhat ops n with
    | .syncComplete _ _ => (List.range n).any fun k => match cwhat ops k with
      | .syncSegment d => d.finalBlock.isSome && decide (askedUnder (cfg.syncPrefix ++ [SYNC]) (cat s0 sts (k + 1)).log =
          askedUnder (cfg.syncPrefix ++ [SYNC]) (cat s0 sts n).log)
      | _ => false
    | _ => true

def cendsB (cfg : CCfg) (L : Nat) (s0 : Cons) (sts : List Cons) (len : Nat) : Bool :=
  (List.range (len + 1)).all fun m => (List.range (len + 1)).all fun n =>
    decide ((cat s0 sts n).now ≤ (cat s0 sts m).now + L) ||
    ((List.range (n + 1)).any (fun k => decide (m ≤ k) && decide ((cat s0 sts k).helloFetcher ≠ some true)) ||
      decide (askedUnder (cfg.syncPrefix ++ [HELLO]) (cat s0 sts m).log ≠ askedUnder (cfg.syncPrefix ++ [HELLO]) (cat s0 sts n).log)) &&
    ((List.range (n + 1)).any (fun k => decide (m ≤ k) && decide ((cat s0 sts k).syncFetcher ≠ some true)) ||
      decide (askedUnder (cfg.syncPrefix ++ [SYNC]) (cat s0 sts m).log ≠ askedUnder (cfg.syncPrefix ++ [SYNC]) (cat s0 sts n).log))

theorem crun_of {cfg : CCfg} {s0 : Cons} {sts : List Cons} {ops : List Cons.Op} (h0 : Cons.init cfg = .ok s0)
    (h : cscan cfg s0 ops = some sts) (hf : cfinalB cfg s0 sts ops = true) : CRun cfg (cat s0 sts) (cwhat ops) ops.length := by
  obtain ⟨h1, h2⟩ := cscan_step h
  refine ⟨?_, ?_, ?_⟩
  · unfold cat; rw [h1]; exact h0
  · intro n hn
    obtain ⟨a, b, h3, h4, h5⟩ := h2 n ops[n] (List.getElem?_eq_getElem hn)
    unfold cat cwhat
    rw [h3, h4, List.getElem?_eq_getElem hn]
    exact h5
  · intro n hn buf acts hw
    unfold cfinalB at hf
    rw [List.all_eq_true] at hf
    have h3 := hf n (List.mem_range.mpr hn)
    rw [hw] at h3
    simp only [List.any_eq_true, List.mem_range] at h3
    obtain ⟨k, h4, h5⟩ := h3
    split at h5
    · rename_i d hd
      simp only [Bool.and_eq_true, decide_eq_true_eq] at h5
      exact ⟨k, h4, d, hd, h5.1, h5.2⟩
    · cases h5

theorem cends_of {cfg : CCfg} {L len : Nat} {s0 : Cons} {sts : List Cons} (h : cendsB cfg L s0 sts len = true) :
    FetchesEnd cfg L (cat s0 sts) len := by
  unfold cendsB at h
  have key : ∀ m n, m ≤ n → n ≤ len → _ := fun m n hmn hn =>
    List.all_eq_true.mp (List.all_eq_true.mp h m (List.mem_range.mpr (by omega))) n (List.mem_range.mpr (by omega))
  constructor
  · intro m n hmn hn hact hsame
    have := key m n hmn hn
    simp only [Bool.or_eq_true, Bool.and_eq_true, decide_eq_true_eq, List.any_eq_true, List.mem_range] at this
    rcases this with h1 | ⟨⟨k, h1, h2, h3⟩ | h1, _⟩
    · exact h1
    · exact absurd (hact k h2 (by omega)) h3
    · exact absurd hsame h1
  · intro m n hmn hn hact hsame
    have := key m n hmn hn
    simp only [Bool.or_eq_true, Bool.and_eq_true, decide_eq_true_eq, List.any_eq_true, List.mem_range] at this
    rcases this with h1 | ⟨_, ⟨k, h1, h2, h3⟩ | h1⟩
    · exact h1
    · exact absurd (hact k h2 (by omega)) h3
    · exact absurd hsame h1

/-- As `sampleCCfg`, with a constant jitter. -/
def paceCfg : CCfg := { sampleCCfg with jitter := fun _ => 300 }

/-- Hello, sync, a nack; the hello it causes fails twice; then a sync that fails. -/
def paceOps : List Cons.Op :=
  [.call (.addSubscription pA 0 false), .call .sendHello, .tick 50,
   .helloSegment (ibfData (nameOf [115] ++ [HELLO]) .blob []), .helloComplete (encodeNames [pA.appendNumber 0]) [.sendSync] [],
   .tick 90, .syncSegment (ibfData (nameOf [115] ++ [SYNC]) .blob []), .syncComplete (encodeNames [pA.appendNumber 1]) [],
   .tick 150, .syncSegment (ibfData (nameOf [115] ++ [SYNC]) .nack []), .syncComplete [] [], .tick 210, .helloError, .tick 510, .fire,
   .tick 570, .helloError, .tick 870, .fire, .tick 930,
   .helloSegment (ibfData (nameOf [115] ++ [HELLO]) .blob []), .helloComplete (encodeNames [pA.appendNumber 0]) [.sendSync] [],
   .tick 990, .syncError false, .tick 1290, .fire]

set_option maxRecDepth 100000 in
set_option synthInstance.maxSize 1024 in
/-- Non-vacuity for C82: fetches end within 60 ms, and the run takes more than a second. -/
theorem c82_sample : ∃ (C : Nat → Cons) (what : Nat → Cons.Op), CRun paceCfg C what 26 ∧ (∀ n, paceCfg.jitter n ≤ 500) ∧
    (∀ n < 26, KeepsGoing [what n]) ∧ FetchesEnd paceCfg 60 C 26 ∧ what 1 = .call .sendHello ∧
    (C 2).now + 2 * 60 + 500 + paceCfg.lag < (C 26).now := by
  have key : ∃ s0, Cons.init paceCfg = .ok s0 ∧ ((cscan paceCfg s0 paceOps).map fun sts =>
      (cfinalB paceCfg s0 sts paceOps, cendsB paceCfg 60 s0 sts 26,
        decide ((cat s0 sts 2).now + 2 * 60 + 500 + paceCfg.lag < (cat s0 sts 26).now))) = some (true, true, true) :=
    Res.of_get? (by decide +kernel)
  obtain ⟨s0, h0, h1⟩ := key
  rw [Option.map_eq_some_iff] at h1
  obtain ⟨sts, h2, h3⟩ := h1
  simp only [Prod.mk.injEq, decide_eq_true_eq] at h3
  refine ⟨cat s0 sts, cwhat paceOps, crun_of h0 h2 h3.1, fun _ => by simp [paceCfg], fun n hn => ⟨?_, ?_⟩, cends_of h3.2.1, rfl, h3.2.2⟩
  · intro buf a1 a2 hm
    simp only [List.mem_singleton] at hm
    have : ∀ n < 26, (match cwhat paceOps n with
      | .helloComplete _ a _ => decide (Cons.Call.sendSync ∈ a)
      | _ => true) = true := by decide +kernel
    have h4 := this n hn
    rw [← hm] at h4
    exact of_decide_eq_true h4
  · have : ∀ n < 26, Cons.Call.stop ∉ callsIn (cwhat paceOps n) := by decide +kernel
    intro op ho
    simp only [List.mem_singleton] at ho
    rw [ho]
    exact this n hn

end PSync
