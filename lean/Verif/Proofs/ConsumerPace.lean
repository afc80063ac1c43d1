import Verif.Spec.ConsumerRun
import Verif.Props.ConsumerAlive
/-!
How long a consumer can be without sending an Interest.
-/
namespace PSync
open Spec
namespace Cons

theorem call_time {cfg : CCfg} {s s' : Cons} {c : Call} (h : call cfg s c = .ok s') :
    s'.now = s.now ∧ (s'.timers = s.timers ∨ s'.timers = []) ∧ (c ≠ .stop → s'.timers = s.timers) ∧
    (c ≠ .stop → s.helloFetcher = some true → s'.helloFetcher = some true) := by
  cases c with
  | addSubscription p q cb =>
    simp only [call, Res.bind_eq_ok, Res.ok.injEq] at h
    obtain ⟨⟨r, t⟩, h1, rfl⟩ := h
    unfold addSubscription at h1
    split at h1
    · simp only [Res.ok.injEq, Prod.mk.injEq] at h1; obtain ⟨_, rfl⟩ := h1; exact ⟨rfl, .inl rfl, fun _ => rfl, fun _ => id⟩
    · simp only [Res.bind_eq_ok, Res.ok.injEq, Prod.mk.injEq] at h1
      obtain ⟨bf, _, _, rfl⟩ := h1
      split <;> exact ⟨rfl, .inl rfl, fun _ => rfl, fun _ => id⟩
  | removeSubscription p =>
    simp only [call, Res.bind_eq_ok, Res.ok.injEq] at h
    obtain ⟨⟨r, t⟩, h1, rfl⟩ := h
    rcases removeSubscription_ok h1 with ⟨_, _, rfl⟩ | ⟨_, _, bf, _, rfl⟩
    · exact ⟨rfl, .inl rfl, fun _ => rfl, fun _ => id⟩
    · exact ⟨rfl, .inl rfl, fun _ => rfl, fun _ => id⟩
  | sendHello =>
    simp only [call, Res.ok.injEq] at h
    subst h
    exact ⟨rfl, .inl rfl, fun _ => rfl, fun _ _ => rfl⟩
  | sendSync =>
    obtain ⟨_, cs, _, rfl⟩ := sendSyncInterest_ok (show s.sendSyncInterest cfg = .ok s' from h)
    exact ⟨rfl, .inl rfl, fun _ => rfl, fun _ => id⟩
  | stop =>
    simp only [call, Res.ok.injEq] at h
    subst h
    exact ⟨rfl, .inr rfl, fun h => absurd rfl h, fun h => absurd rfl h⟩

theorem calls_time {cfg : CCfg} : ∀ {cs : List Call} {s s' : Cons}, foldRes (call cfg) s cs = .ok s' →
    s'.now = s.now ∧ (s'.timers = s.timers ∨ s'.timers = []) ∧ (.stop ∉ cs → s'.timers = s.timers) ∧
    (.stop ∉ cs → s.helloFetcher = some true → s'.helloFetcher = some true) := by
  intro cs
  induction cs with
  | nil => intro s s' h; simp only [foldRes, Res.ok.injEq] at h; subst h; exact ⟨rfl, .inl rfl, fun _ => rfl, fun _ => id⟩
  | cons c cs ih =>
    intro s s' h
    simp only [foldRes, Res.bind_eq_ok] at h
    obtain ⟨t, h1, h2⟩ := h
    obtain ⟨a1, a2, a3, a4⟩ := call_time h1
    obtain ⟨b1, b2, b3, b4⟩ := ih h2
    refine ⟨b1.trans a1, ?_, fun hn => ?_, fun hn hf => ?_⟩
    · rcases b2 with b2 | b2
      · rw [b2]; exact a2
      · exact .inr b2
    · simp only [List.mem_cons, not_or] at hn
      exact (b3 hn.2).trans (a3 (fun e => hn.1 e.symm))
    · simp only [List.mem_cons, not_or] at hn
      exact b4 hn.2 (a4 (fun e => hn.1 e.symm) hf)

theorem onHelloData_time {cfg : CCfg} {s s' : Cons} {buf : Bytes} {a1 a2 : List Call} (h : onHelloData cfg s buf a1 a2 = .ok s') :
    s'.now = s.now ∧ (s'.timers = s.timers ∨ s'.timers = []) ∧ (.stop ∉ a1 ++ a2 → s'.timers = s.timers) := by
  unfold onHelloData at h
  simp only [Res.bind_eq_ok] at h
  obtain ⟨st, _, r, _, t, h3, h4⟩ := h
  obtain ⟨b1, b2, b3, _⟩ := calls_time h3
  have e : (emit { s with iblt := s.helloDataName.drop (s.helloDataName.length - 1), prefixes := r.1 } (.hello r.2.2)).timers = s.timers := rfl
  have e' : (emit { s with iblt := s.helloDataName.drop (s.helloDataName.length - 1), prefixes := r.1 } (.hello r.2.2)).now = s.now := rfl
  rw [e] at b2 b3
  rw [e'] at b1
  split at h4
  · simp only [Res.ok.injEq] at h4
    subst h4
    exact ⟨b1, b2, fun hn => b3 (fun hm => hn (List.mem_append_left _ hm))⟩
  · obtain ⟨c1, c2, c3, _⟩ := calls_time h4
    have e : (emit t (.update r.2.1)).timers = t.timers := rfl
    have e' : (emit t (.update r.2.1)).now = t.now := rfl
    rw [e] at c2 c3
    rw [e'] at c1
    refine ⟨c1.trans b1, ?_, fun hn => ?_⟩
    · rcases c2 with c2 | c2
      · rw [c2]; exact b2
      · exact .inr c2
    · exact (c3 (fun hm => hn (List.mem_append_right _ hm))).trans (b3 (fun hm => hn (List.mem_append_left _ hm)))

theorem onSyncData_time {cfg : CCfg} {s s' : Cons} {buf : Bytes} {a : List Call} (h : onSyncData cfg s buf a = .ok s') :
    s'.now = s.now ∧ (s'.timers = s.timers ∨ s'.timers = []) := by
  unfold onSyncData at h
  simp only [Res.bind_eq_ok] at h
  obtain ⟨st, _, r, _, t, h3, h4⟩ := h
  obtain ⟨_, cs, _, rfl⟩ := sendSyncInterest_ok h4
  split at h3
  · simp only [Res.ok.injEq] at h3
    subst h3
    exact ⟨rfl, .inl rfl⟩
  · obtain ⟨b1, b2, _⟩ := calls_time h3
    exact ⟨b1, b2⟩

theorem takeDue_sub {now : Nat} : ∀ {ts ts' : List (Nat × CTimer)} {k : CTimer}, takeDue now ts = some (k, ts') →
    ∀ e ∈ ts', e ∈ ts := by
  intro ts
  induction ts with
  | nil => intro ts' k h; simp [takeDue] at h
  | cons a ts ih =>
    intro ts' k h e he
    obtain ⟨d, k0⟩ := a
    simp only [takeDue] at h
    split at h
    · simp only [Option.some.injEq, Prod.mk.injEq] at h
      rw [← h.2] at he
      exact List.mem_cons_of_mem _ he
    · split at h
      · simp at h
      · rename_i k' ts'' hq
        simp only [Option.some.injEq, Prod.mk.injEq] at h
        rw [← h.2] at he
        rcases List.mem_cons.mp he with rfl | he
        · exact List.mem_cons_self
        · exact List.mem_cons_of_mem _ (ih hq e he)

/-- Timers are set for at most 500 ms, and are not overdue by more than the lag. -/
def TimersOk (cfg : CCfg) (s : Cons) : Prop := ∀ e ∈ s.timers, e.1 ≤ s.now + 500 ∧ s.now ≤ e.1 + cfg.lag

theorem TimersOk.same {cfg : CCfg} {s s' : Cons} (h : TimersOk cfg s) (h1 : s'.now = s.now)
    (h2 : s'.timers = s.timers ∨ s'.timers = []) : TimersOk cfg s' := by
  intro e he
  rw [h1]
  rcases h2 with h2 | h2
  · rw [h2] at he; exact h e he
  · rw [h2] at he; simp at he

theorem TimersOk.step {cfg : CCfg} (hj : ∀ n, cfg.jitter n ≤ 500) {s s' : Cons} {op : Op} (hs : TimersOk cfg s)
    (h : step cfg s op = .ok s') : TimersOk cfg s' := by
  have more : ∀ k : CTimer, ∀ e ∈ s.timers ++ [(s.now + cfg.jitter s.draws, k)], e.1 ≤ s.now + 500 ∧ s.now ≤ e.1 + cfg.lag := by
    intro k e he
    rcases List.mem_append.mp he with he | he
    · exact hs e he
    · simp only [List.mem_singleton] at he
      have := hj s.draws
      subst he
      constructor <;> simp only <;> omega
  cases op with
  | call c => obtain ⟨h1, h2, _⟩ := call_time (show call cfg s c = .ok s' from h); exact hs.same h1 h2
  | helloSegment d =>
    simp only [Cons.step] at h
    split at h
    · cases h; split <;> exact hs
    · cases h; exact hs
  | helloComplete buf a1 a2 =>
    simp only [Cons.step] at h
    split at h
    · obtain ⟨h1, h2, _⟩ := onHelloData_time h; exact hs.same h1 h2
    · cases h; exact hs
  | helloError =>
    simp only [Cons.step] at h
    split at h
    · cases h; exact more .hello
    · cases h; exact hs
  | syncSegment d =>
    simp only [Cons.step] at h
    split at h
    · cases h; split <;> split <;> exact hs
    · cases h; exact hs
  | syncComplete buf a =>
    simp only [Cons.step] at h
    split at h
    · split at h
      · cases h; exact hs
      · obtain ⟨h1, h2⟩ := onSyncData_time h; exact hs.same h1 h2
    · cases h; exact hs
  | syncError t =>
    simp only [Cons.step] at h
    split at h
    · split at h
      · obtain ⟨_, cs, _, rfl⟩ := sendSyncInterest_ok h; exact hs
      · cases h; exact more .sync
    · cases h; exact hs
  | tick t =>
    simp only [Cons.step, Res.ok.injEq] at h
    subst h
    split
    · rename_i hg
      simp only [Bool.and_eq_true, decide_eq_true_eq, List.all_eq_true] at hg
      intro e he
      have h1 := hs e he
      have h2 := hg.2 e he
      constructor
      · show e.1 ≤ t + 500
        omega
      · exact h2
    · exact hs
  | fire =>
    simp only [Cons.step] at h
    split at h
    · cases h; exact hs
    · rename_i ts hq
      cases h
      exact fun e he => hs e (takeDue_sub hq e he)
    · rename_i ts hq
      obtain ⟨_, cs, _, rfl⟩ := sendSyncInterest_ok h
      exact fun e he => hs e (takeDue_sub hq e he)

/-- An event in which no Interest is sent. -/
theorem step_unsent {cfg : CCfg} {s s' : Cons} {op : Op} (hk : KeepsGoing [op]) (h : step cfg s op = .ok s')
    (hq : ∀ pre, askedUnder pre s'.log = askedUnder pre s.log) :
    (∀ e ∈ s.timers, e ∈ s'.timers) ∧
    (s.helloFetcher = some true → s'.helloFetcher = some true ∨ (s'.timers ≠ [] ∧ s'.now = s.now)) ∧
    (s.syncFetcher = some true → s'.syncFetcher = some true ∨ (s'.timers ≠ [] ∧ s'.now = s.now) ∨
      (s'.now = s.now ∧ s'.timers = s.timers ∧ s'.helloFetcher = s.helloFetcher ∧
        ∃ buf acts, op = .syncComplete buf acts ∧ s.contentType = .nack)) := by
  have hello : ∀ t : Cons, t.log = s.log → ∀ x, (x : Cons) = t.sendHelloInterest cfg → s' = x → False := by
    intro t ht x hx hsx
    have := hq (helloPrefix cfg)
    rw [hsx, hx] at this
    unfold sendHelloInterest at this
    simp only [askedUnder_append, askedUnder_hit List.prefix_rfl, ht] at this
    simp at this
  cases op with
  | call c =>
    have := hk.noStop (.call c) (by simp)
    simp only [callsIn, List.mem_singleton] at this
    obtain ⟨h1, _, h3, h4⟩ := call_time (show call cfg s c = .ok s' from h)
    have hns : c ≠ .stop := fun e => this e.symm
    exact ⟨by rw [h3 hns]; exact fun _ h => h, fun hf => .inl (h4 hns hf), fun hf => .inl ((call_keeps hns h).2.1 hf)⟩
  | helloSegment d =>
    simp only [step] at h
    split at h
    · cases h; split <;> exact ⟨fun _ h => h, fun hf => .inl hf, fun hf => .inl hf⟩
    · cases h; exact ⟨fun _ h => h, fun hf => .inl hf, fun hf => .inl hf⟩
  | helloComplete buf a1 a2 =>
    simp only [step] at h
    split at h
    · exact absurd (hq (cfg.syncPrefix ++ [SYNC])) (onHelloData_sends (s := { s with helloFetcher := some false })
        (hk.hello buf a1 a2 (by simp)) (hk.noStop _ List.mem_cons_self) h).2
    · cases h; exact ⟨fun _ h => h, fun hf => .inl hf, fun hf => .inl hf⟩
  | helloError =>
    simp only [step] at h
    split at h
    · cases h; exact ⟨fun e he => List.mem_append_left _ he, fun _ => .inr ⟨by simp, rfl⟩, fun hf => .inl hf⟩
    · cases h; exact ⟨fun _ h => h, fun hf => .inl hf, fun hf => .inl hf⟩
  | syncSegment d =>
    simp only [step] at h
    split at h
    · simp only [Res.ok.injEq] at h
      generalize hx : (if d.finalBlock.isSome = true then { s with syncDataName := Name.dropLast d.name 2, contentType := d.contentType }
        else s) = x at h
      have hl : x.log = s.log := by rw [← hx]; split <;> rfl
      have e1 : x.timers = s.timers := by rw [← hx]; split <;> rfl
      have e2 : x.helloFetcher = s.helloFetcher := by rw [← hx]; split <;> rfl
      have e3 : x.syncFetcher = s.syncFetcher := by rw [← hx]; split <;> rfl
      split at h
      · exact absurd (hello x hl _ rfl h.symm) id
      · subst h
        rw [e1, e2, e3]
        exact ⟨fun _ h => h, fun hf => .inl hf, fun hf => .inl hf⟩
    · cases h; exact ⟨fun _ h => h, fun hf => .inl hf, fun hf => .inl hf⟩
  | syncComplete buf a =>
    simp only [step] at h
    split at h
    · split at h
      · rename_i hn
        cases h
        exact ⟨fun _ h => h, fun hf => .inl hf, fun _ => .inr (.inr ⟨rfl, rfl, rfl, buf, a, rfl, hn⟩)⟩
      · have h' := h
        unfold onSyncData at h'
        simp only [Res.bind_eq_ok] at h'
        obtain ⟨st, _, r, _, t, h3, h4⟩ := h'
        exfalso
        have h5 := (sendSync_keeps h4).2.2.2.2
        refine h5 ?_
        have e := hq (cfg.syncPrefix ++ [SYNC])
        have p1 : askedUnder (cfg.syncPrefix ++ [SYNC]) s.log <+: askedUnder (cfg.syncPrefix ++ [SYNC]) t.log := by
          split at h3
          · cases h3; exact List.prefix_rfl
          · obtain ⟨ext, e1, _⟩ := ((went_update cfg _ r.2).trans (went_calls h3)).sync
            rw [e1]
            exact List.prefix_append _ _
        obtain ⟨_, cs, _, rfl⟩ := sendSyncInterest_ok h4
        have p2 : askedUnder (cfg.syncPrefix ++ [SYNC]) t.log <+:
            askedUnder (cfg.syncPrefix ++ [SYNC]) (t.log ++ [Out.interest (syncPrefixName cfg ++ cs ++ t.iblt) cfg.syncLifetime]) := by
          rw [askedUnder_append]; exact List.prefix_append _ _
        refine (p2.eq_of_length_le ?_).symm
        simp only at e
        rw [e]
        exact p1.length_le
    · cases h; exact ⟨fun _ h => h, fun hf => .inl hf, fun hf => .inl hf⟩
  | syncError t =>
    simp only [step] at h
    split at h
    · split at h
      · exact absurd (hq (cfg.syncPrefix ++ [SYNC])) (sendSync_keeps h).2.2.2.2
      · cases h
        exact ⟨fun e he => List.mem_append_left _ he, fun hf => .inl hf, fun _ => .inr (.inl ⟨by simp, rfl⟩)⟩
    · cases h; exact ⟨fun _ h => h, fun hf => .inl hf, fun hf => .inl hf⟩
  | tick t =>
    simp only [step, Res.ok.injEq] at h
    subst h
    split <;> exact ⟨fun _ h => h, fun hf => .inl hf, fun hf => .inl hf⟩
  | fire =>
    simp only [step] at h
    split at h
    · cases h; exact ⟨fun _ h => h, fun hf => .inl hf, fun hf => .inl hf⟩
    · rename_i ts hd
      simp only [Res.ok.injEq] at h
      exact absurd (hello { s with timers := ts } rfl _ rfl h.symm) id
    · exact absurd (hq (cfg.syncPrefix ++ [SYNC])) (sendSync_keeps h).2.2.2.2

end Cons

namespace Spec.CRun
variable {cfg : CCfg} {C : Nat → Cons} {what : Nat → Cons.Op} {len : Nat}

theorem timers (h : CRun cfg C what len) (hj : ∀ n, cfg.jitter n ≤ 500) : ∀ {n}, n ≤ len → Cons.TimersOk cfg (C n) := by
  intro n
  induction n with
  | zero =>
    intro _ e he
    have := h.init
    unfold Cons.init at this
    simp only [Res.bind_eq_ok, Res.ok.injEq] at this
    obtain ⟨_, _, h1⟩ := this
    rw [← h1] at he
    simp at he
  | succ n ih => intro hn; exact (ih (by omega)).step hj (h.step n (by omega))

/-- The events of a stretch as a run. -/
theorem stretch (h : CRun cfg C what len) {m n : Nat} (hmn : m ≤ n) (hn : n ≤ len) :
    Cons.run cfg (C m) ((List.range' m (n - m)).map what) = .ok (C n) := by
  induction n, hmn using Nat.le_induction with
  | base => simp [Cons.run, foldRes]
  | succ n hmn ih =>
    have e : n + 1 - m = (n - m) + 1 := by omega
    rw [e, List.range'_concat, List.map_append]
    unfold Cons.run at ih ⊢
    rw [foldRes_append, ih (by omega), Res.ok_bind]
    have e2 : m + 1 * (n - m) = n := by omega
    simp only [List.map_cons, List.map_nil, foldRes, e2, h.step n (by omega), Res.bind]

theorem asked (h : CRun cfg C what len) {m n : Nat} (hmn : m ≤ n) (hn : n ≤ len) (pre : Name) :
    askedUnder pre (C m).log <+: askedUnder pre (C n).log := by
  induction n, hmn using Nat.le_induction with
  | base => exact List.prefix_rfl
  | succ n hmn ih => exact (ih (by omega)).trans (Cons.step_asked (h.step n (by omega)) pre)

/-- A sync fetch that is going on has been going on since the last sync Interest. -/
theorem fetching (h : CRun cfg C what len) {m n : Nat} (hmn : m ≤ n) (hn : n ≤ len)
    (hsame : askedUnder (cfg.syncPrefix ++ [SYNC]) (C m).log = askedUnder (cfg.syncPrefix ++ [SYNC]) (C n).log)
    (hf : (C n).syncFetcher = some true) : ∀ k, m ≤ k → k ≤ n → (C k).syncFetcher = some true := by
  induction n, hmn using Nat.le_induction with
  | base => intro k h1 h2; obtain rfl : k = m := by omega
            exact hf
  | succ n hmn ih =>
    have p1 := h.asked hmn (by omega) (cfg.syncPrefix ++ [SYNC])
    have p2 := Cons.step_asked (h.step n (by omega)) (cfg.syncPrefix ++ [SYNC])
    have e1 : askedUnder (cfg.syncPrefix ++ [SYNC]) (C n).log = askedUnder (cfg.syncPrefix ++ [SYNC]) (C (n + 1)).log := by
      refine p2.eq_of_length_le ?_
      rw [← hsame]
      exact p1.length_le
    have hfn := (Cons.sync_window (h.step n (by omega)) hf e1.symm).1
    intro k h1 h2
    rcases Nat.lt_or_ge n k with h3 | h3
    · obtain rfl : k = n + 1 := by omega
      exact hf
    · exact ih (by omega) (hsame.trans e1.symm) hfn k h1 h3

theorem going (hk : ∀ n < len, KeepsGoing [what n]) {m n : Nat} (hn : n ≤ len) : KeepsGoing ((List.range' m (n - m)).map what) := by
  constructor
  · intro b a1 a2 hm
    simp only [List.mem_map, List.mem_range'_1] at hm
    obtain ⟨k, ⟨_, h2⟩, h3⟩ := hm
    exact (hk k (by omega)).hello b a1 a2 (by simp [h3])
  · intro o ho
    simp only [List.mem_map, List.mem_range'_1] at ho
    obtain ⟨k, ⟨_, h2⟩, h3⟩ := ho
    exact (hk k (by omega)).noStop o (by simp [h3])

/-- When the fetch of a nack completes, a hello Interest is outstanding or a timer runs. -/
theorem nacked (h : CRun cfg C what len) (hk : ∀ n < len, KeepsGoing [what n]) {n : Nat} (hn : n < len) {buf : Bytes}
    {acts : List Cons.Call} (hw : what n = .syncComplete buf acts) (hf : (C n).syncFetcher = some true)
    (hnack : (C n).contentType = .nack) : Cons.Wake (C n) := by
  obtain ⟨k, hkn, d, hwk, hd, hsame⟩ := h.final n hn buf acts hw
  have hfk1 := h.fetching (m := k + 1) (n := n) (by omega) (by omega) hsame hf (k + 1) (le_refl _) (by omega)
  have hs := h.step k (by omega)
  rw [hwk] at hs
  have hfk : (C k).syncFetcher = some true := by
    by_contra hne
    simp only [Cons.step, if_neg hne, Res.ok.injEq] at hs
    rw [hs] at hne
    exact hne hfk1
  exact (Cons.run_wake _ (going hk (by omega)) (h.stretch (m := k + 1) (n := n) (by omega) (by omega))
    (fun hx => .inl ((Cons.syncSegment_says hfk hs).2 hx)) hsame).2 hnack

/-- After the first hello Interest. -/
theorem busy (h : CRun cfg C what len) (hk : ∀ n < len, KeepsGoing [what n]) {m n : Nat} (hmn : m ≤ n) (hn : n ≤ len)
    (hb : Busy (C m)) : Busy (C n) := by
  induction n, hmn using Nat.le_induction with
  | base => exact hb
  | succ n hmn ih =>
    refine Cons.step_busy (hk n (by omega)) (h.step n (by omega)) (ih (by omega)) ?_
    intro buf acts hw hf hnack
    exact h.nacked hk (by omega) hw hf hnack

/-- A stretch in which no Interest is sent. -/
def Mute (C : Nat → Cons) (m n : Nat) : Prop := ∀ k, m ≤ k → k < n → ∀ name, ¬ Asks1 C k name

theorem Mute.mono {C : Nat → Cons} {m n m' n' : Nat} (h : Mute C m n) (h1 : m ≤ m') (h2 : n' ≤ n) : Mute C m' n' :=
  fun k a b name => h k (by omega) (by omega) name

theorem mute_asked (h : CRun cfg C what len) {k : Nat} (hk : k < len) (hq : ∀ name, ¬ Asks1 C k name) (pre : Name) :
    askedUnder pre (C (k + 1)).log = askedUnder pre (C k).log := by
  obtain ⟨ext, e⟩ := (Cons.step_micros (h.step k hk)).log
  have hno : ∀ nm lt, Out.interest nm lt ∉ ext := by
    intro nm lt hm
    refine hq nm ⟨lt, ?_⟩
    rw [e, List.drop_left]
    exact hm
  rw [e, askedUnder_append]
  have : askedUnder pre ext = [] := by
    unfold askedUnder
    rw [List.filterMap_eq_nil_iff]
    intro o ho
    cases o with
    | interest nm lt => exact absurd ho (hno nm lt)
    | _ => rfl
  rw [this, List.append_nil]

theorem mute_same (h : CRun cfg C what len) {m n : Nat} (hmn : m ≤ n) (hn : n ≤ len) (hq : Mute C m n) (pre : Name) :
    askedUnder pre (C m).log = askedUnder pre (C n).log := by
  induction n, hmn using Nat.le_induction with
  | base => rfl
  | succ n hmn ih =>
    rw [h.mute_asked (by omega) (hq n hmn (by omega))]
    exact ih (by omega) (hq.mono (le_refl _) (by omega))

theorem muteTimers (h : CRun cfg C what len) (hj : ∀ n, cfg.jitter n ≤ 500) (hk : ∀ n < len, KeepsGoing [what n]) {m n : Nat}
    (hmn : m ≤ n) (hn : n ≤ len) (hq : Mute C m n) (ht : (C m).timers ≠ []) : (C n).now ≤ (C m).now + 500 + cfg.lag := by
  obtain ⟨e, he⟩ := List.exists_mem_of_ne_nil _ ht
  have keep : e ∈ (C n).timers := by
    induction n, hmn using Nat.le_induction with
    | base => exact he
    | succ n hmn ih =>
      exact (Cons.step_unsent (hk n (by omega)) (h.step n (by omega)) (h.mute_asked (by omega) (hq n hmn (by omega)))).1 e
        (ih (by omega) (hq.mono (le_refl _) (by omega)))
  have h1 := (h.timers hj (n := m) (by omega) e he).1
  have h2 := (h.timers hj hn e keep).2
  omega

theorem muteHello (h : CRun cfg C what len) (hj : ∀ n, cfg.jitter n ≤ 500) (hk : ∀ n < len, KeepsGoing [what n]) {L : Nat}
    (hL : FetchesEnd cfg L C len) {m n : Nat} (hmn : m ≤ n) (hn : n ≤ len) (hq : Mute C m n)
    (hf : (C m).helloFetcher = some true) : (C n).now ≤ (C m).now + L + 500 + cfg.lag := by
  classical
  by_cases hall : ∀ k, m ≤ k → k ≤ n → (C k).helloFetcher = some true
  · have := hL.hello m n hmn hn hall (h.mute_same hmn hn hq _)
    omega
  · simp only [not_forall] at hall
    have hex : ∃ k, m ≤ k ∧ k ≤ n ∧ (C k).helloFetcher ≠ some true := by
      obtain ⟨k, h1, h2, h3⟩ := hall; exact ⟨k, h1, h2, h3⟩
    have hs := Nat.find_spec hex
    have hmin := fun x => Nat.find_min (m := x) hex
    generalize Nat.find hex = k at hs hmin
    obtain ⟨h1, h2, h3⟩ := hs
    have hkm : m < k := by
      rcases Nat.lt_or_ge m k with h4 | h4
      · exact h4
      · obtain rfl : k = m := by omega
        exact absurd hf h3
    obtain ⟨y, rfl⟩ : ∃ y, k = y + 1 := ⟨k - 1, by omega⟩
    have hact : ∀ x, m ≤ x → x ≤ y → (C x).helloFetcher = some true := by
      intro x hx1 hx2
      by_contra hne
      exact hmin x (by omega) ⟨hx1, by omega, hne⟩
    have h4 := hL.hello m y (by omega) (by omega) hact (h.mute_same (by omega) (by omega) (hq.mono (le_refl _) (by omega)) _)
    rcases (Cons.step_unsent (hk y (by omega)) (h.step y (by omega)) (h.mute_asked (by omega) (hq y (by omega) (by omega)))).2.1
      (hact y (by omega) (le_refl _)) with h5 | ⟨h5, h6⟩
    · exact absurd h5 h3
    · have := h.muteTimers hj hk (m := y + 1) h2 hn (hq.mono (by omega) (le_refl _)) h5
      omega

theorem muteWake (h : CRun cfg C what len) (hj : ∀ n, cfg.jitter n ≤ 500) (hk : ∀ n < len, KeepsGoing [what n]) {L : Nat}
    (hL : FetchesEnd cfg L C len) {m n : Nat} (hmn : m ≤ n) (hn : n ≤ len) (hq : Mute C m n) (hf : Cons.Wake (C m)) :
    (C n).now ≤ (C m).now + L + 500 + cfg.lag := by
  rcases hf with hf | hf
  · exact h.muteHello hj hk hL hmn hn hq hf
  · have := h.muteTimers hj hk hmn hn hq hf
    omega

theorem muteSync (h : CRun cfg C what len) (hj : ∀ n, cfg.jitter n ≤ 500) (hk : ∀ n < len, KeepsGoing [what n]) {L : Nat}
    (hL : FetchesEnd cfg L C len) {m n : Nat} (hmn : m ≤ n) (hn : n ≤ len) (hq : Mute C m n)
    (hf : (C m).syncFetcher = some true) : (C n).now ≤ (C m).now + 2 * L + 500 + cfg.lag := by
  classical
  by_cases hall : ∀ k, m ≤ k → k ≤ n → (C k).syncFetcher = some true
  · have := hL.sync m n hmn hn hall (h.mute_same hmn hn hq _)
    omega
  · simp only [not_forall] at hall
    have hex : ∃ k, m ≤ k ∧ k ≤ n ∧ (C k).syncFetcher ≠ some true := by
      obtain ⟨k, h1, h2, h3⟩ := hall; exact ⟨k, h1, h2, h3⟩
    have hs := Nat.find_spec hex
    have hmin := fun x => Nat.find_min (m := x) hex
    generalize Nat.find hex = k at hs hmin
    obtain ⟨h1, h2, h3⟩ := hs
    have hkm : m < k := by
      rcases Nat.lt_or_ge m k with h4 | h4
      · exact h4
      · obtain rfl : k = m := by omega
        exact absurd hf h3
    obtain ⟨y, rfl⟩ : ∃ y, k = y + 1 := ⟨k - 1, by omega⟩
    have hact : ∀ x, m ≤ x → x ≤ y → (C x).syncFetcher = some true := by
      intro x hx1 hx2
      by_contra hne
      exact hmin x (by omega) ⟨hx1, by omega, hne⟩
    have h4 := hL.sync m y (by omega) (by omega) hact (h.mute_same (by omega) (by omega) (hq.mono (le_refl _) (by omega)) _)
    rcases (Cons.step_unsent (hk y (by omega)) (h.step y (by omega)) (h.mute_asked (by omega) (hq y (by omega) (by omega)))).2.2
      (hact y (by omega) (le_refl _)) with h5 | ⟨h5, h6⟩ | ⟨h6, h7, h8, buf, acts, hw, hnack⟩
    · exact absurd h5 h3
    · have := h.muteTimers hj hk (m := y + 1) h2 hn (hq.mono (by omega) (le_refl _)) h5
      omega
    · have hw' := h.nacked hk (n := y) (by omega) hw (hact y (by omega) (le_refl _)) hnack
      have := h.muteWake hj hk hL (m := y + 1) h2 hn (hq.mono (by omega) (le_refl _)) (by
        unfold Cons.Wake; rw [h7, h8]; exact hw')
      omega

/-- Not silent for long. -/
theorem mute (h : CRun cfg C what len) (hj : ∀ n, cfg.jitter n ≤ 500) (hk : ∀ n < len, KeepsGoing [what n]) {L : Nat}
    (hL : FetchesEnd cfg L C len) {m n : Nat} (hmn : m ≤ n) (hn : n ≤ len) (hq : Mute C m n) (hb : Busy (C m)) :
    (C n).now ≤ (C m).now + 2 * L + 500 + cfg.lag := by
  rcases hb with hb | hb | hb
  · have := h.muteHello hj hk hL hmn hn hq hb; omega
  · exact h.muteSync hj hk hL hmn hn hq hb
  · have := h.muteTimers hj hk hmn hn hq hb; omega

end Spec.CRun
end PSync
