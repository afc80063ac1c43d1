import Verif.Spec.ConsumerCause
import Verif.Props.ConsumerPace
/-!
C92: a consumer sends no Interest without a reason, and for every reason one.
-/
namespace PSync
open Spec

namespace Cons

/-- Sent and scheduled Interests of a kind. -/
def askSum (cfg : CCfg) (k : CTimer) (s : Cons) : Nat := sentKind cfg k s.log + scheduledKind k s

variable {cfg : CCfg}

theorem asksKind_hello (cfg : CCfg) (k : CTimer) (t : Nat) : asksKind cfg k (.interest (helloPrefix cfg) t) = decide (k = .hello) := by
  cases k with
  | hello => simp [asksKind, helloPrefix]
  | sync =>
    simp only [asksKind, helloPrefix, reduceCtorEq, decide_false]
    rw [Bool.eq_false_iff]
    intro h
    obtain ⟨r, hr⟩ := List.isPrefixOf_iff_prefix.mp h
    rw [List.append_assoc] at hr
    have := List.append_cancel_left hr
    simp only [List.cons_append, List.nil_append, List.cons.injEq] at this
    exact absurd this.1 (by decide)

theorem asksKind_sync (cfg : CCfg) (k : CTimer) (cs n : Name) (t : Nat) :
    asksKind cfg k (.interest (syncPrefixName cfg ++ cs ++ n) t) = decide (k = .sync) := by
  cases k with
  | sync =>
    simp only [asksKind, syncPrefixName, decide_true]
    rw [List.isPrefixOf_iff_prefix]
    exact ⟨cs ++ n, by simp⟩
  | hello =>
    refine decide_eq_false fun h => ?_
    unfold syncPrefixName at h
    rw [List.append_assoc, List.append_assoc] at h
    have := List.append_cancel_left h
    simp only [List.cons_append, List.nil_append, List.cons.injEq] at this
    exact absurd this.1 (by decide)

theorem askSum_hello (k : CTimer) (s : Cons) :
    askSum cfg k (s.sendHelloInterest cfg) = askSum cfg k s + (if k = .hello then 1 else 0) := by
  unfold askSum sentKind sendHelloInterest scheduledKind
  simp only [List.countP_append, List.countP_singleton, asksKind_hello]
  cases k <;> simp <;> omega

theorem askSum_sync {k : CTimer} {s s' : Cons} (h : s.sendSyncInterest cfg = .ok s') :
    askSum cfg k s' = askSum cfg k s + (if k = .sync then 1 else 0) := by
  unfold sendSyncInterest at h
  split at h
  · cases h
  · simp only [Res.bind_eq_ok, Res.ok.injEq] at h
    obtain ⟨cs, _, rfl⟩ := h
    unfold askSum sentKind scheduledKind
    simp only [List.countP_append, List.countP_singleton, asksKind_sync]
    cases k <;> simp <;> omega

theorem askSum_emit (k : CTimer) (s : Cons) {o : Out} (ho : asksKind cfg k o = false) : askSum cfg k (s.emit o) = askSum cfg k s := by
  unfold askSum sentKind scheduledKind emit
  simp [ho]

/-- One call: at most the Interest that it asks for, and exactly that unless it is `stop`. -/
theorem call_ask {k : CTimer} {s s' : Cons} {c : Call} (h : call cfg s c = .ok s') :
    askSum cfg k s' ≤ askSum cfg k s + [c].count (callKind k) ∧
    (c ≠ .stop → askSum cfg k s' = askSum cfg k s + [c].count (callKind k)) := by
  cases c with
  | addSubscription p q cb =>
    have e : askSum cfg k s' = askSum cfg k s := by
      simp only [call, Res.bind_eq_ok, Res.ok.injEq] at h
      obtain ⟨r, h, rfl⟩ := h
      unfold addSubscription at h
      split at h
      · cases h; rfl
      · simp only [Res.bind_eq_ok, Res.ok.injEq] at h
        obtain ⟨bf, _, rfl⟩ := h
        dsimp only
        split
        · rw [askSum_emit _ _ (by cases k <;> rfl)]; rfl
        · rfl
    have e0 : [Call.addSubscription p q cb].count (callKind k) = 0 := by cases k <;> simp [callKind]
    rw [e, e0]
    exact ⟨Nat.le_refl _, fun _ => rfl⟩
  | removeSubscription p =>
    have e : askSum cfg k s' = askSum cfg k s := by
      simp only [call, Res.bind_eq_ok, Res.ok.injEq] at h
      obtain ⟨r, h, rfl⟩ := h
      unfold removeSubscription at h
      split at h
      · cases h; rfl
      · simp only [Res.bind_eq_ok, Res.ok.injEq] at h
        obtain ⟨bf, _, rfl⟩ := h
        rfl
    have e0 : [Call.removeSubscription p].count (callKind k) = 0 := by cases k <;> simp [callKind]
    rw [e, e0]
    exact ⟨Nat.le_refl _, fun _ => rfl⟩
  | sendHello =>
    simp only [call, Res.ok.injEq] at h
    subst h
    rw [askSum_hello]
    cases k <;> simp [callKind]
  | sendSync =>
    simp only [call] at h
    rw [askSum_sync h]
    cases k <;> simp [callKind]
  | stop =>
    simp only [call, Res.ok.injEq] at h
    subst h
    refine ⟨?_, fun h => absurd rfl h⟩
    unfold askSum scheduledKind stop
    simp only [List.countP_nil]
    omega

theorem calls_ask {k : CTimer} (cs : List Call) : ∀ {s s' : Cons}, foldRes (call cfg) s cs = .ok s' →
    askSum cfg k s' ≤ askSum cfg k s + cs.count (callKind k) ∧
    (.stop ∉ cs → askSum cfg k s' = askSum cfg k s + cs.count (callKind k)) := by
  induction cs with
  | nil =>
    intro s s' h
    simp only [foldRes, Res.ok.injEq] at h
    subst h
    exact ⟨Nat.le_refl _, fun _ => rfl⟩
  | cons c cs ih =>
    intro s s' h
    simp only [foldRes, Res.bind_eq_ok] at h
    obtain ⟨s1, h1, h2⟩ := h
    obtain ⟨a1, a2⟩ := call_ask (k := k) h1
    obtain ⟨b1, b2⟩ := ih h2
    have e : (c :: cs).count (callKind k) = [c].count (callKind k) + cs.count (callKind k) := by
      rw [← List.count_append, List.singleton_append]
    refine ⟨by omega, fun hc => ?_⟩
    rw [List.mem_cons, not_or] at hc
    rw [b2 hc.2, a2 (fun h => hc.1 h.symm)]
    omega

theorem onHelloData_ask {k : CTimer} {s s' : Cons} {buf : Bytes} {a1 a2 : List Call} (h : onHelloData cfg s buf a1 a2 = .ok s') :
    askSum cfg k s' ≤ askSum cfg k s + (a1 ++ a2).count (callKind k) ∧
    (.stop ∉ a1 → a2 = [] → askSum cfg k s' = askSum cfg k s + (a1 ++ a2).count (callKind k)) := by
  unfold onHelloData at h
  simp only [Res.bind_eq_ok] at h
  obtain ⟨st, _, r, _, s1, h1, h2⟩ := h
  obtain ⟨b1, b2⟩ := calls_ask (k := k) _ h1
  rw [askSum_emit _ _ (by cases k <;> rfl)] at b1 b2
  have e0 : ∀ q, askSum cfg k { s with iblt := q, prefixes := r.1 } = askSum cfg k s := fun _ => rfl
  rw [e0] at b1 b2
  rw [List.count_append]
  split at h2
  · cases h2
    refine ⟨by omega, ?_⟩
    rintro hs rfl
    rw [b2 hs, List.count_nil]
    omega
  · obtain ⟨c1, c2⟩ := calls_ask (k := k) _ h2
    rw [askSum_emit _ _ (by cases k <;> rfl)] at c1 c2
    refine ⟨by omega, ?_⟩
    rintro hs rfl
    rw [c2 (by simp), b2 hs, List.count_nil]
    omega

theorem onSyncData_ask {k : CTimer} {s s' : Cons} {buf : Bytes} {acts : List Call} (h : onSyncData cfg s buf acts = .ok s') :
    askSum cfg k s' ≤ askSum cfg k s + acts.count (callKind k) + (if k = .sync then 1 else 0) ∧
    (acts = [] → askSum cfg k s' = askSum cfg k s + (if k = .sync then 1 else 0)) := by
  unfold onSyncData at h
  simp only [Res.bind_eq_ok] at h
  obtain ⟨st, _, r, _, s1, h1, h2⟩ := h
  rw [askSum_sync h2]
  have e0 : ∀ q, askSum cfg k { s with iblt := q, prefixes := r.1 } = askSum cfg k s := fun _ => rfl
  split at h1
  · cases h1
    rw [e0]
    exact ⟨by omega, fun _ => rfl⟩
  · obtain ⟨c1, c2⟩ := calls_ask (k := k) _ h1
    rw [askSum_emit _ _ (by cases k <;> rfl), e0] at c1 c2
    refine ⟨by omega, ?_⟩
    rintro rfl
    rw [c2 (by simp)]
    simp

theorem takeDue_count {now : Nat} {k k' : CTimer} : ∀ {l l' : List (Nat × CTimer)}, takeDue now l = some (k', l') →
    l.countP (fun e => decide (e.2 = k)) = l'.countP (fun e => decide (e.2 = k)) + (if k = k' then 1 else 0) := by
  intro l
  induction l with
  | nil => intro l' h; cases h
  | cons e l ih =>
    obtain ⟨d, q⟩ := e
    intro l' h
    unfold takeDue at h
    split at h
    · simp only [Option.some.injEq, Prod.mk.injEq] at h
      obtain ⟨rfl, rfl⟩ := h
      rw [List.countP_cons]
      simp only [decide_eq_true_eq, eq_comm (a := q)]
    · cases hr : takeDue now l with
      | none => rw [hr] at h; cases h
      | some r =>
        rw [hr] at h
        simp only [Option.some.injEq, Prod.mk.injEq] at h
        obtain ⟨rfl, rfl⟩ := h
        rw [List.countP_cons, List.countP_cons, ih hr]
        omega

/-- One event. -/
theorem step_ask {k : CTimer} {s s' : Cons} {op : Op} (h : step cfg s op = .ok s') :
    askSum cfg k s' ≤ askSum cfg k s + reasons s k op ∧ (Plain op → askSum cfg k s' = askSum cfg k s + reasons s k op) := by
  cases op with
  | call c => exact ⟨(call_ask h).1, fun hp => (call_ask h).2 hp⟩
  | helloSegment d =>
    simp only [step] at h
    split at h
    · cases h
      have e : askSum cfg k (if d.finalBlock.isSome then { s with helloDataName := Name.dropLast d.name 2 } else s) = askSum cfg k s := by
        split <;> rfl
      rw [e]
      exact ⟨Nat.le_refl _, fun _ => rfl⟩
    · cases h; exact ⟨Nat.le_refl _, fun _ => rfl⟩
  | helloComplete buf a1 a2 =>
    simp only [step] at h
    split at h
    · rename_i hf
      obtain ⟨b1, b2⟩ := onHelloData_ask (k := k) h
      have e : askSum cfg k { s with helloFetcher := some false } = askSum cfg k s := rfl
      rw [e] at b1 b2
      simp only [reasons, hf, if_true]
      exact ⟨b1, fun hp => b2 hp.1 hp.2⟩
    · rename_i hf
      cases h
      simp only [reasons, hf, if_false]
      exact ⟨Nat.le_refl _, fun _ => rfl⟩
  | helloError =>
    have e : askSum cfg k s' = askSum cfg k s + reasons s k .helloError := by
      simp only [step] at h
      split at h
      · rename_i hf
        cases h
        unfold askSum sentKind scheduledKind reasons
        simp only [List.countP_append, List.countP_singleton, hf, and_true]
        cases k <;> simp <;> omega
      · rename_i hf
        cases h
        simp [reasons, hf]
    rw [e]
    exact ⟨Nat.le_refl _, fun _ => rfl⟩
  | syncSegment d =>
    have e : askSum cfg k s' = askSum cfg k s + reasons s k (.syncSegment d) := by
      simp only [step] at h
      split at h
      · rename_i hf
        cases h
        simp only [reasons, hf, true_and]
        by_cases hb : d.finalBlock.isSome = true
        · simp only [hb, if_true]
          by_cases hn : d.contentType = .nack
          · simp only [hn, if_true, and_true]
            rw [askSum_hello]
            rfl
          · simp only [hn, if_false, and_false]
            rfl
        · simp only [hb, if_false]
          by_cases hn : s.contentType = .nack
          · simp only [hn, if_true, and_true, Bool.false_eq_true, if_false]
            rw [askSum_hello]
          · simp only [hn, if_false, and_false, Bool.false_eq_true]
            rfl
      · rename_i hf
        cases h
        simp only [reasons, hf, false_and, and_false, if_false]
        rfl
    rw [e]
    exact ⟨Nat.le_refl _, fun _ => rfl⟩
  | syncComplete buf acts =>
    simp only [step] at h
    split at h
    · rename_i hf
      split at h
      · rename_i hn
        cases h
        have hn' : s.contentType = .nack := hn
        simp only [reasons, hn', ne_eq, not_true_eq_false, and_false, if_false]
        exact ⟨Nat.le_refl _, fun _ => rfl⟩
      · rename_i hn
        have hn' : s.contentType ≠ .nack := hn
        obtain ⟨b1, b2⟩ := onSyncData_ask (k := k) h
        have e : askSum cfg k { s with syncFetcher := some false } = askSum cfg k s := rfl
        rw [e] at b1 b2
        have e1 : reasons s k (.syncComplete buf acts) = acts.count (callKind k) + (if k = .sync then 1 else 0) := by
          simp only [reasons, hf, true_and, ne_eq, hn', not_false_eq_true, if_true]
        rw [e1]
        refine ⟨by omega, fun hp => ?_⟩
        rw [b2 hp]
        cases hp
        simp
    · rename_i hf
      cases h
      simp only [reasons, hf, false_and, if_false]
      exact ⟨Nat.le_refl _, fun _ => rfl⟩
  | syncError t =>
    have e : askSum cfg k s' = askSum cfg k s + reasons s k (.syncError t) := by
      simp only [step] at h
      split at h
      · rename_i hf
        simp only [reasons, hf, and_true]
        split at h
        · rw [askSum_sync h]
          rfl
        · cases h
          unfold askSum sentKind scheduledKind
          simp only [List.countP_append, List.countP_singleton]
          cases k <;> simp <;> omega
      · rename_i hf
        cases h
        simp [reasons, hf]
    rw [e]
    exact ⟨Nat.le_refl _, fun _ => rfl⟩
  | tick t =>
    simp only [step, Res.ok.injEq] at h
    subst h
    have e : ∀ b : Bool, askSum cfg k (if b then { s with now := t } else s) = askSum cfg k s := by
      intro b; cases b <;> rfl
    rw [e]
    exact ⟨Nat.le_refl _, fun _ => rfl⟩
  | fire =>
    have e : askSum cfg k s' = askSum cfg k s := by
      simp only [step] at h
      split at h
      · cases h; rfl
      · rename_i ts ht
        cases h
        rw [askSum_hello]
        have := takeDue_count (k := k) ht
        unfold askSum sentKind scheduledKind
        simp only
        omega
      · rename_i ts ht
        rw [askSum_sync h]
        have := takeDue_count (k := k) ht
        unfold askSum sentKind scheduledKind
        simp only
        omega
    rw [e]
    exact ⟨Nat.le_refl _, fun _ => rfl⟩

theorem run_ask {k : CTimer} (ops : List Op) : ∀ {s s' : Cons}, run cfg s ops = .ok s' →
    askSum cfg k s' ≤ askSum cfg k s + allReasons cfg k s ops ∧
    ((∀ op ∈ ops, Plain op) → askSum cfg k s' = askSum cfg k s + allReasons cfg k s ops) := by
  induction ops with
  | nil =>
    intro s s' h
    simp only [run, foldRes, Res.ok.injEq] at h
    subst h
    exact ⟨Nat.le_refl _, fun _ => rfl⟩
  | cons op ops ih =>
    intro s s' h
    simp only [run, foldRes, Res.bind_eq_ok] at h
    obtain ⟨s1, h1, h2⟩ := h
    obtain ⟨a1, a2⟩ := step_ask (k := k) h1
    obtain ⟨b1, b2⟩ := ih h2
    simp only [allReasons, h1]
    refine ⟨by omega, fun hp => ?_⟩
    rw [b2 fun o ho => hp o (List.mem_cons_of_mem _ ho), a2 (hp op List.mem_cons_self)]
    omega

end Cons

/-- Everything in the log that is an Interest is of exactly one kind. -/
def OneKind (cfg : CCfg) (log : List Out) : Prop :=
  ∀ n t, Out.interest n t ∈ log → asksKind cfg .hello (.interest n t) = !asksKind cfg .sync (.interest n t)

theorem CMicro.oneKind {cfg : CCfg} {C : Cons.Call → Prop} {s s' : Cons} (h : CMicro cfg C s s') (hl : OneKind cfg s.log) :
    OneKind cfg s'.log := by
  have add : ∀ o, (∀ n t, o = Out.interest n t → asksKind cfg .hello (.interest n t) = !asksKind cfg .sync (.interest n t)) →
      OneKind cfg (s.log ++ [o]) := by
    intro o ho n t hm
    rcases List.mem_append.mp hm with hm | hm
    · exact hl n t hm
    · exact ho n t (List.mem_singleton.mp hm).symm
  cases h with
  | call c _ h =>
    cases c with
    | addSubscription p q cb =>
      simp only [Cons.call, Res.bind_eq_ok, Res.ok.injEq] at h
      obtain ⟨r, h, rfl⟩ := h
      unfold Cons.addSubscription at h
      split at h
      · cases h; exact hl
      · simp only [Res.bind_eq_ok, Res.ok.injEq] at h
        obtain ⟨bf, _, rfl⟩ := h
        dsimp only
        split
        · exact add _ (fun _ _ h => by cases h)
        · exact hl
    | removeSubscription p =>
      simp only [Cons.call, Res.bind_eq_ok, Res.ok.injEq] at h
      obtain ⟨r, h, rfl⟩ := h
      unfold Cons.removeSubscription at h
      split at h
      · cases h; exact hl
      · simp only [Res.bind_eq_ok, Res.ok.injEq] at h
        obtain ⟨bf, _, rfl⟩ := h
        exact hl
    | sendHello =>
      cases h
      exact add _ (fun n t h => by cases h; rw [Cons.asksKind_hello, Cons.asksKind_hello]; rfl)
    | sendSync =>
      simp only [Cons.call, Cons.sendSyncInterest] at h
      split at h
      · cases h
      · simp only [Res.bind_eq_ok, Res.ok.injEq] at h
        obtain ⟨cs, _, rfl⟩ := h
        exact add _ (fun n t h => by cases h; rw [Cons.asksKind_sync, Cons.asksKind_sync]; rfl)
    | stop => cases h; exact hl
  | helloData => exact hl
  | syncData => exact hl
  | notify us => exact add _ (fun _ _ h => by cases h)
  | hello m => exact add _ (fun _ _ h => by cases h)
  | internal _ _ _ _ h => rw [h]; exact hl

/-- **C92**: whatever happens to a consumer, the Interests of a kind that it has sent, together with the retries of that kind that it has
scheduled, are at most the reasons there were for them. -/
theorem c92_reasons (cfg : CCfg) (s0 s : Cons) (ops : List Cons.Op) (h0 : Cons.init cfg = .ok s0) (h : Cons.run cfg s0 ops = .ok s)
    (k : CTimer) : sentKind cfg k s.log + scheduledKind k s ≤ allReasons cfg k s0 ops := by
  have := (Cons.run_ask (k := k) ops h).1
  simp only [Cons.init, Res.bind_eq_ok, Res.ok.injEq] at h0
  obtain ⟨bf, _, rfl⟩ := h0
  simpa [Cons.askSum, sentKind, scheduledKind] using this

/-- **C92**: and if the application does not call `stop` and makes no calls from its update callback, then there is exactly one Interest,
sent or scheduled, for every reason. -/
theorem c92_exact (cfg : CCfg) (s0 s : Cons) (ops : List Cons.Op) (h0 : Cons.init cfg = .ok s0) (h : Cons.run cfg s0 ops = .ok s)
    (hp : ∀ op ∈ ops, Plain op) (k : CTimer) : sentKind cfg k s.log + scheduledKind k s = allReasons cfg k s0 ops := by
  have := (Cons.run_ask (k := k) ops h).2 hp
  simp only [Cons.init, Res.bind_eq_ok, Res.ok.injEq] at h0
  obtain ⟨bf, _, rfl⟩ := h0
  simpa [Cons.askSum, sentKind, scheduledKind] using this

/-- **C92**: every Interest in the log is of one of the two kinds, and not of both. -/
theorem c92_kinds (cfg : CCfg) (s0 s : Cons) (ops : List Cons.Op) (h0 : Cons.init cfg = .ok s0) (h : Cons.run cfg s0 ops = .ok s)
    (n : Name) (t : Nat) (hi : Out.interest n t ∈ s.log) :
    asksKind cfg .hello (.interest n t) = !asksKind cfg .sync (.interest n t) := by
  have hm := Cons.run_micros (C := fun _ => True) (fun _ _ _ _ => trivial) h
  have key : OneKind cfg s.log := by
    clear h hi
    induction hm with
    | refl =>
      simp only [Cons.init, Res.bind_eq_ok, Res.ok.injEq] at h0
      obtain ⟨bf, _, rfl⟩ := h0
      intro n t hm
      cases hm
    | tail _ h ih => exact h.oneKind ih
  exact key n t hi

set_option synthInstance.maxSize 1024 in
/-- Non-vacuity for C92: the run of C82's example.  Four hello Interests: a call, a nack, and two failures.  Four sync Interests: two calls
from the hello callback, a completed reply, and a failure. -/
example : ((Cons.init paceCfg).get?.bind fun s0 => (Cons.run paceCfg s0 paceOps).get?.map fun s =>
      (allReasons paceCfg .hello s0 paceOps, sentKind paceCfg .hello s.log, scheduledKind .hello s,
       allReasons paceCfg .sync s0 paceOps, sentKind paceCfg .sync s.log, scheduledKind .sync s))
    = some (4, 4, 0, 4, 4, 0) := by decide +kernel

set_option synthInstance.maxSize 1024 in
/-- And just before the last timer runs. -/
example : ((Cons.init paceCfg).get?.bind fun s0 => (Cons.run paceCfg s0 paceOps.dropLast).get?.map fun s =>
      (allReasons paceCfg .sync s0 paceOps.dropLast, sentKind paceCfg .sync s.log, scheduledKind .sync s))
    = some (4, 3, 1) := by decide +kernel

example : ∀ op ∈ paceOps, Plain op := by
  simp [paceOps, Plain]

end PSync
