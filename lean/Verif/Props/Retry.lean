import Verif.Proofs.Retry
import Verif.Props.Kept
/-!
Property C73: Interests that wait are retried in time.
-/
namespace PSync
open Spec

theorem Full.run_timed {cfg : Cfg} (hwf : cfg.WF) (ops : List Full.Op) : ∀ {s s' : Full}, Full.Reach cfg s → s.Timed →
    Full.run cfg s ops = .ok s' → s'.Timed := by
  induction ops with
  | nil => intro s s' _ ht h; simp only [Full.run, foldRes, Res.ok.injEq] at h; subst h; exact ht
  | cons op ops ih =>
    intro s s' hr ht h
    simp only [Full.run, foldRes, Res.bind_eq_ok] at h
    obtain ⟨s1, h1, h2⟩ := h
    exact ih (hr.next h1) (Full.step_timed hwf ht h1 (Full.step_now_le hr h1)) h2

theorem Full.reach_timed {cfg : Cfg} (hwf : cfg.WF) {s : Full} (h : Full.Reach cfg s) : s.Timed := by
  obtain ⟨s0, ops, h1, h2⟩ := h
  refine Full.run_timed hwf ops ⟨s0, [], h1, rfl⟩ ?_ h2
  unfold Full.init at h1
  have hc := Full.sendSyncInterest_core h1
  refine ⟨fun d hd => ?_, fun _ n => ?_⟩
  · rw [hc.delayTimer] at hd; cases hd
  · rw [hc.waiting]; rfl

theorem retries_bound {cfg : Cfg} (hwf : cfg.WF) {n : Name} (ops : List Full.Op) : ∀ {s s' : Full} {B d : Nat}, Full.Reach cfg s →
    Full.run cfg s ops = .ok s' → StaysWaiting cfg n s ops → s.delayTimer = some d → d ≤ B → s.now ≤ B + cfg.lag →
    s'.now ≤ B + cfg.lag + (500 + cfg.lag) * countRetries cfg s ops := by
  induction ops with
  | nil =>
    intro s s' B d _ h _ _ _ hle
    simp only [Full.run, foldRes, Res.ok.injEq] at h
    subst h
    omega
  | cons op ops ih =>
    intro s s' B d hr h hw hd hdB hle
    simp only [Full.run, foldRes, Res.bind_eq_ok] at h
    obtain ⟨s1, h1, h2⟩ := h
    simp only [StaysWaiting, h1] at hw
    simp only [countRetries, h1]
    have hr1 := hr.next h1
    obtain ⟨d1, hd1⟩ : ∃ d1, s1.delayTimer = some d1 := by
      cases hx : s1.delayTimer with
      | some d1 => exact ⟨d1, rfl⟩
      | none =>
        obtain ⟨w, hw1⟩ : ∃ w, s1.waiting.find n = some w := by
          cases ops with
          | nil => exact keys_some hw.2
          | cons _ _ => exact keys_some hw.2.1
        rw [(Full.reach_timed hwf hr1).set hx n] at hw1
        cases hw1
    rcases Full.step_armed hwf h1 with ⟨u, rfl, hu, rfl⟩ | ⟨rfl, ⟨d0, hd0, hdn⟩, hn, h3⟩ | ⟨hn, ⟨hd', _⟩ | ⟨_, hd', _⟩⟩
    · unfold Full.timersAfter at hu
      simp only [Bool.and_eq_true, hd, decide_eq_true_eq] at hu
      have := ih hr1 h2 hw.2 hd hdB (hu.1.1.2.trans (Nat.add_le_add_right hdB _))
      exact this.trans (Nat.add_le_add_left (Nat.mul_le_mul_left _ (by omega)) _)
    · have hx : isRetry s .fireDelay s1 = true := by
        simp only [isRetry, hd0, Option.any_some, decide_eq_true_eq]
        exact hdn
      rw [if_pos hx]
      have hd1' := (Full.reach_timed hwf hr1).soon d1 hd1
      have := ih (B := B + (500 + cfg.lag)) hr1 h2 hw.2 hd1 (by omega) (by omega)
      rw [Nat.mul_add, Nat.mul_one]
      omega
    · have := ih hr1 h2 hw.2 (hd'.trans hd) hdB (by omega)
      exact this.trans (Nat.add_le_add_left (Nat.mul_le_mul_left _ (by omega)) _)
    · rw [hd] at hd'; cases hd'

/-- C73: while an Interest is on the waiting list it is retried at least once in every 500 ms (and the time
the timer is late). -/
theorem c73_retried (cfg : Cfg) (hwf : cfg.WF) (s s' : Full) (hs : Full.Reach cfg s) (ops : List Full.Op) (n : Name)
    (h : Full.run cfg s ops = .ok s') (hn : StaysWaiting cfg n s ops) :
    s'.now ≤ s.now + (500 + cfg.lag) * (countRetries cfg s ops + 1) := by
  have ht := Full.reach_timed hwf hs
  have hn0 : n ∈ s.waiting.keys := by
    cases ops with
    | nil => exact hn
    | cons _ _ => exact hn.1
  obtain ⟨w, hw⟩ := keys_some hn0
  cases hd : s.delayTimer with
  | none => rw [ht.set hd n] at hw; cases hw
  | some d =>
    have := retries_bound hwf ops hs h hn hd (ht.soon d hd) (by omega)
    rw [Nat.mul_add, Nat.mul_one]
    omega

/-- C73: no Interest waits longer than about nine hours (if timers are not late). -/
theorem c73_never_forever (cfg : Cfg) (hwf : cfg.WF) (s s' : Full) (hs : Full.Reach cfg s) (ops : List Full.Op) (n : Name)
    (h : Full.run cfg s ops = .ok s') (hn : StaysWaiting cfg n s ops) : s'.now ≤ s.now + (500 + cfg.lag) * 65535 := by
  have h1 := c73_retried cfg hwf s s' hs ops n h hn
  have h2 := c31_bounded cfg s s' hs ops n h hn
  exact h1.trans (Nat.add_le_add_left (Nat.mul_le_mul_left (500 + cfg.lag) (Nat.succ_le_succ h2)) _)

/-- During a run, the Interest `n` is not parked and stays ahead of the node at every event. -/
def Spec.StaysAhead (cfg : Cfg) (n : Name) : Full → List Full.Op → Prop
  | _, [] => True
  | s, op :: ops =>
    match Full.step cfg s op with
    | .ok s' => n ∉ s.pending.keys ∧ AheadOf cfg s.pub s'.base n ∧ StaysAhead cfg n s' ops
    | _ => True

theorem staysWaiting_snoc {cfg : Cfg} {n : Name} (ops : List Full.Op) (op : Full.Op) : ∀ {s s1 s2 : Full},
    Full.run cfg s ops = .ok s1 → Full.step cfg s1 op = .ok s2 → StaysWaiting cfg n s (ops ++ [op]) →
    StaysWaiting cfg n s ops ∧ n ∈ s2.waiting.keys ∧
      countRetries cfg s (ops ++ [op]) = countRetries cfg s ops + if isRetry s1 op s2 then 1 else 0 := by
  induction ops with
  | nil =>
    intro s s1 s2 h h2 hw
    simp only [Full.run, foldRes, Res.ok.injEq] at h
    subst h
    simp only [List.nil_append, StaysWaiting, h2] at hw
    exact ⟨hw.1, hw.2, by simp [countRetries, h2]⟩
  | cons a ops ih =>
    intro s s1 s2 h h2 hw
    simp only [Full.run, foldRes, Res.bind_eq_ok] at h
    obtain ⟨s3, h3, h4⟩ := h
    simp only [List.cons_append, StaysWaiting, h3] at hw
    obtain ⟨h5, h6, h7⟩ := ih h4 h2 hw.2
    refine ⟨by simp only [StaysWaiting, h3]; exact ⟨hw.1, h5⟩, h6, ?_⟩
    simp only [List.cons_append, countRetries, h3, h7]
    omega

theorem staysAhead_snoc {cfg : Cfg} {n : Name} (ops : List Full.Op) (op : Full.Op) : ∀ {s s1 s2 : Full},
    Full.run cfg s ops = .ok s1 → Full.step cfg s1 op = .ok s2 → StaysAhead cfg n s (ops ++ [op]) →
    StaysAhead cfg n s ops ∧ n ∉ s1.pending.keys ∧ AheadOf cfg s1.pub s2.base n := by
  induction ops with
  | nil =>
    intro s s1 s2 h h2 hw
    simp only [Full.run, foldRes, Res.ok.injEq] at h
    subst h
    simp only [List.nil_append, StaysAhead, h2] at hw
    exact ⟨trivial, hw.1, hw.2.1⟩
  | cons a ops ih =>
    intro s s1 s2 h h2 hw
    simp only [Full.run, foldRes, Res.bind_eq_ok] at h
    obtain ⟨s3, h3, h4⟩ := h
    simp only [List.cons_append, StaysAhead, h3] at hw
    obtain ⟨h5, h6, h7⟩ := ih h4 h2 hw.2.2
    exact ⟨by simp only [StaysAhead, h3]; exact ⟨hw.1, hw.2.1, h5⟩, h6, h7⟩

/-- C73: an Interest that stays ahead of the node waits for at most a second (if timers are not late). -/
theorem c73_ahead (cfg : Cfg) (hwf : cfg.WF) (s s' : Full) (hs : Full.Reach cfg s) (ops : List Full.Op) (n : Name)
    (h : Full.run cfg s ops = .ok s') (hn : StaysWaiting cfg n s ops) (ha : StaysAhead cfg n s ops) :
    s'.now ≤ s.now + 2 * (500 + cfg.lag) := by
  have hc : countRetries cfg s ops ≤ 1 := by
    clear hwf
    induction ops using List.reverseRecOn generalizing s' with
    | nil => simp [countRetries]
    | append_singleton ops op ih =>
      unfold Full.run at h
      rw [foldRes_append] at h
      simp only [Res.bind_eq_ok, foldRes, Res.ok.injEq] at h
      obtain ⟨s1, h1, s2, h2, rfl⟩ := h
      obtain ⟨h3, h4, h5⟩ := staysWaiting_snoc ops op h1 h2 hn
      obtain ⟨h6, h7, h8⟩ := staysAhead_snoc ops op h1 h2 ha
      have h9 := ih s1 h1 h3 h6
      rw [h5]
      split
      · rename_i hr
        by_contra hgt
        exact c31_at_most_twice cfg s s1 s2 hs ops op n h1 h3 (by omega) h2 hr h7 h8 h4
      · omega
  have h1 := c73_retried cfg hwf s s' hs ops n h hn
  have h2 := Nat.mul_le_mul_left (500 + cfg.lag) (Nat.succ_le_succ hc)
  rw [Nat.mul_comm 2]
  exact h1.trans (Nat.add_le_add_left h2 _)

/-- `StaysWaiting` and the part of `StaysAhead` about parking, computed. -/
def staysB (cfg : Cfg) (n : Name) : Full → List Full.Op → Bool
  | s, [] => decide (n ∈ s.waiting.keys)
  | s, op :: ops => decide (n ∈ s.waiting.keys) &&
    match Full.step cfg s op with
    | .ok s' => decide (n ∉ s.pending.keys) && aheadB cfg s.pub s'.base n && staysB cfg n s' ops
    | _ => false
where
  /-- `AheadOf` for a difference that decodes, computed. -/
  aheadB (cfg : Cfg) (pub : SegPub) (b : Base) (n : Name) : Bool :=
    decide (pub.replyFromStore n = none) && decide ((n.drop cfg.syncPrefix.length).length = 2) &&
    match n.getFromEnd 2, n.getFromEnd 1 with
    | .ok c2, .ok c1 =>
      match c1.toNumber, Table.initialize cfg.ibltCodec cfg.expected c2 with
      | .ok _, .ok iblt =>
        match Table.diff cfg.fuel b.iblt iblt with
        | .ok diff => diff.canDecode && diff.positive.isEmpty && !diff.negative.isEmpty
        | _ => false
      | _, _ => false
    | _, _ => false

theorem ahead_of {cfg : Cfg} {pub : SegPub} {b : Base} {n : Name} (h : staysB.aheadB cfg pub b n = true) : AheadOf cfg pub b n := by
  unfold staysB.aheadB at h
  simp only [Bool.and_eq_true, decide_eq_true_eq] at h
  obtain ⟨⟨h1, h2⟩, h3⟩ := h
  split at h3
  · rename_i c2 c1 e2 e1
    split at h3
    · rename_i num iblt e3 e4
      split at h3
      · rename_i diff e5
        simp only [Bool.and_eq_true, List.isEmpty_iff, Bool.not_eq_true', List.isEmpty_eq_false_iff] at h3
        exact ⟨h1, c2, c1, num, iblt, diff, h2, e2, e1, e3, e4, e5, .inr ⟨h3.1.1, h3.1.2, h3.2⟩⟩
      · cases h3
    · cases h3
  · cases h3

theorem stays_of {cfg : Cfg} {n : Name} (ops : List Full.Op) : ∀ {s : Full}, staysB cfg n s ops = true →
    StaysWaiting cfg n s ops ∧ StaysAhead cfg n s ops := by
  induction ops with
  | nil => intro s h; exact ⟨by simp only [StaysWaiting]; simpa [staysB] using h, trivial⟩
  | cons op ops ih =>
    intro s h
    simp only [staysB, Bool.and_eq_true, decide_eq_true_eq] at h
    obtain ⟨h1, h2⟩ := h
    split at h2
    · rename_i s' hs
      simp only [Bool.and_eq_true, decide_eq_true_eq] at h2
      obtain ⟨⟨h2, h3⟩, h4⟩ := h2
      obtain ⟨h5, h6⟩ := ih h4
      simp only [StaysWaiting, StaysAhead, hs]
      exact ⟨⟨h1, h5⟩, h2, ahead_of h3, h6⟩
    · cases h2

set_option synthInstance.maxSize 1024 in
/-- Non-vacuity for C73: an Interest that is ahead waits and stays ahead from 0 to 201 ms; it is retried once in that
time, and the second retry, at 201 ms, drops it. -/
theorem c73_sample : ∃ s s', Full.Reach sampleCfg s ∧ Full.run sampleCfg s [.tick 101, .fireDelay, .tick 201] = .ok s' ∧
    StaysWaiting sampleCfg aheadInterest.name s [.tick 101, .fireDelay, .tick 201] ∧
    StaysAhead sampleCfg aheadInterest.name s [.tick 101, .fireDelay, .tick 201] ∧ s.now = 0 ∧ s'.now = 201 ∧
    countRetries sampleCfg s [.tick 101, .fireDelay, .tick 201] = 1 ∧
    ∃ s2, Full.step sampleCfg s' .fireDelay = .ok s2 ∧ s2.waiting.keys = [] := by
  have key : ∃ s0, Full.init sampleCfg = .ok s0 ∧ (Full.run sampleCfg s0 [.recvInterest aheadInterest]).get?.map (fun s =>
      (s.now, staysB sampleCfg aheadInterest.name s [.tick 101, .fireDelay, .tick 201],
        countRetries sampleCfg s [.tick 101, .fireDelay, .tick 201],
        (Full.run sampleCfg s [.tick 101, .fireDelay, .tick 201]).get?.map (fun s' => (s'.now, (Full.step sampleCfg s' .fireDelay).get?.map
          (fun s2 : Full => s2.waiting.keys.length))))) = some (0, true, 1, some (201, some 0)) := Res.of_get? (by decide +kernel)
  obtain ⟨s0, h0, h1⟩ := key
  obtain ⟨s, h2, h3⟩ := Res.of_get? h1
  simp only [Prod.mk.injEq] at h3
  obtain ⟨h3, h4, h5, h6⟩ := h3
  obtain ⟨s', h7, h8⟩ := Res.of_get? h6
  simp only [Prod.mk.injEq] at h8
  obtain ⟨h8, h9⟩ := h8
  obtain ⟨s2, h10, h11⟩ := Res.of_get? h9
  obtain ⟨h12, h13⟩ := stays_of _ h4
  exact ⟨s, s', ⟨s0, _, h0, h2⟩, h7, h12, h13, h3, h8, h5, s2, h10, List.length_eq_zero_iff.mp h11⟩

end PSync
