import Verif.Props.Retry
/-!
Property C113: Interests of others do not accumulate at a FullProducer.
-/
namespace PSync
open Spec

/-- The names of the sync Interests that reach a full-sync node during `ops`. -/
def Spec.heardNames (ops : List Full.Op) : List Name :=
  ops.filterMap fun op => match op with
    | .recvInterest i => some i.name
    | _ => none

theorem mem_heardNames {ops : List Full.Op} {n : Name} :
    n ∈ heardNames ops ↔ ∃ i, Full.Op.recvInterest i ∈ ops ∧ i.name = n := by
  unfold heardNames
  rw [List.mem_filterMap]
  constructor
  · rintro ⟨op, h1, h2⟩
    split at h2
    · rename_i i
      exact ⟨i, h1, by simpa using h2⟩
    · cases h2
  · rintro ⟨i, h1, rfl⟩
    exact ⟨_, h1, rfl⟩

theorem staysWaiting_add {cfg : Cfg} {n : Name} {op : Full.Op} (ops : List Full.Op) : ∀ {s s1 s2 : Full},
    Full.run cfg s ops = .ok s1 → Full.step cfg s1 op = .ok s2 → StaysWaiting cfg n s ops → n ∈ s2.waiting.keys →
    StaysWaiting cfg n s (ops ++ [op]) := by
  induction ops with
  | nil =>
    intro s s1 s2 h h2 hw hk
    simp only [Full.run, foldRes, Res.ok.injEq] at h
    subst h
    simp only [List.nil_append, StaysWaiting, h2]
    exact ⟨hw, hk⟩
  | cons a ops ih =>
    intro s s1 s2 h h2 hw hk
    simp only [Full.run, foldRes, Res.bind_eq_ok] at h
    obtain ⟨s3, h3, h4⟩ := h
    simp only [StaysWaiting, h3] at hw
    simp only [List.cons_append, StaysWaiting, h3]
    exact ⟨hw.1, ih h4 h2 hw.2 hk⟩

/-- An Interest that waits was received and has been waiting ever since. -/
theorem wait_origin {cfg : Cfg} {s0 : Full} (h0 : Full.init cfg = .ok s0) (ops : List Full.Op) :
    ∀ {s : Full}, Full.run cfg s0 ops = .ok s → ∀ n ∈ s.waiting.keys, ∃ pre i post s1 s2,
      ops = pre ++ Full.Op.recvInterest i :: post ∧ i.name = n ∧ Full.run cfg s0 pre = .ok s1 ∧
      Full.step cfg s1 (.recvInterest i) = .ok s2 ∧ s2.now = s1.now ∧ Full.run cfg s2 post = .ok s ∧ StaysWaiting cfg n s2 post := by
  induction ops using List.reverseRecOn with
  | nil =>
    intro s h n hn
    simp only [Full.run, foldRes, Res.ok.injEq] at h
    subst h
    rw [(Full.init_lists h0).2.2] at hn
    cases hn
  | append_singleton ops op ih =>
    intro s h n hn
    unfold Full.run at h
    rw [foldRes_append] at h
    simp only [Res.bind_eq_ok, foldRes, Res.ok.injEq] at h
    obtain ⟨s1, h1, s2, h2, rfl⟩ := h
    have hl := Full.run_lists (Full.init_lists h0).1 h1
    by_cases hold : n ∈ s1.waiting.keys
    · obtain ⟨pre, i, post, s3, s4, e1, e2, e3, e4, e5, e6, e7⟩ := ih h1 n hold
      refine ⟨pre, i, post ++ [op], s3, s4, by rw [e1]; simp, e2, e3, e4, e5, ?_, staysWaiting_add post e6 h2 e7 hn⟩
      unfold Full.run at *
      rw [foldRes_append, e6]
      simp only [Res.ok_bind, foldRes, h2]
    · have hnone : s1.waiting.find n = none := by
        cases hf : s1.waiting.find n with
        | none => rfl
        | some w => exact absurd (by rw [NMap.mem_keys, hf]; rfl) hold
      have hsome := hn
      rw [NMap.mem_keys, Option.isSome_iff_exists] at hsome
      obtain ⟨w, hw⟩ := hsome
      cases Full.step_lists hl h2 with
      | shrink hs => rw [hs.waiting, hnone] at hw; cases hw
      | time t _ _ _ hs => subst hs; rw [hnone] at hw; cases hw
      | retry s3 _ hs p =>
        rw [p.other n (by rw [hs.waiting]; exact hold), hs.waiting, hnone] at hw
        cases hw
      | interest i hop hh _ _ =>
        subst hop
        by_cases hi : i.name = n
        · exact ⟨ops, i, [], s1, s2, rfl, hi, h1, h2, hh.now, rfl, hn⟩
        · rw [hh.other n (fun h => hi h.symm), hnone] at hw
          cases hw

theorem Full.run_now_le {cfg : Cfg} (ops : List Full.Op) : ∀ {s s' : Full}, Full.Reach cfg s → Full.run cfg s ops = .ok s' → s.now ≤ s'.now := by
  induction ops with
  | nil => intro s s' _ h; simp only [Full.run, foldRes, Res.ok.injEq] at h; subst h; exact le_rfl
  | cons op ops ih =>
    intro s s' hr h
    simp only [Full.run, foldRes, Res.bind_eq_ok] at h
    obtain ⟨s1, h1, h2⟩ := h
    exact (Full.step_now_le hr h1).trans (ih (hr.next h1) h2)

/-- An event that happened at `s1`, of which the time is at least that of the end of `old`, is one of `new`. -/
theorem late_event {cfg : Cfg} {old new pre post : List Full.Op} {op : Full.Op} {s0 s1 s2 : Full} (h0 : Full.init cfg = .ok s0)
    (he : old ++ new = pre ++ op :: post) (h1 : Full.run cfg s0 pre = .ok s1) (h2 : Full.run cfg s0 old = .ok s2) :
    op ∈ new ∨ op ∈ old ∧ s1.now ≤ s2.now := by
  rcases List.append_eq_append_iff.mp he with ⟨l, e1, e2⟩ | ⟨l, e1, e2⟩
  · exact Or.inl (by rw [e2]; simp)
  · cases l with
    | nil =>
      simp only [List.nil_append] at e2
      exact Or.inl (by rw [← e2]; simp)
    | cons o l =>
      simp only [List.cons_append, List.cons.injEq] at e2
      obtain ⟨rfl, _⟩ := e2
      refine Or.inr ⟨by rw [e1]; simp, ?_⟩
      rw [e1] at h2
      unfold Full.run at h2
      rw [foldRes_append, show foldRes (Full.step cfg) s0 pre = .ok s1 from h1] at h2
      exact Full.run_now_le _ ⟨s0, pre, h0, h1⟩ h2

/-- C113: what waits at a FullProducer was received at most about nine hours ago (65535 times 500 ms and the time timers are late), so no more Interests
wait than were received since then. -/
theorem c113_waiting (cfg : Cfg) (hwf : cfg.WF) (old new : List Full.Op) (s0 s1 s : Full) (h0 : Full.init cfg = .ok s0)
    (h1 : Full.run cfg s0 old = .ok s1) (h : Full.run cfg s1 new = .ok s)
    (ht : s1.now + (500 + cfg.lag) * 65535 < s.now) :
    s.waiting.keys ⊆ heardNames new ∧ s.waiting.length ≤ (heardNames new).length := by
  have hrun : Full.run cfg s0 (old ++ new) = .ok s := by
    unfold Full.run at *
    rw [foldRes_append, h1]
    exact h
  have hsub : s.waiting.keys ⊆ heardNames new := by
    intro n hn
    obtain ⟨pre, i, post, s2, s3, e1, e2, e3, e4, e5, e6, e7⟩ := wait_origin h0 _ hrun n hn
    rw [mem_heardNames]
    rcases late_event h0 e1 e3 h1 with hi | ⟨_, hle⟩
    · exact ⟨i, hi, e2⟩
    · have := c73_never_forever cfg hwf s3 s ((show Full.Reach cfg s2 from ⟨s0, pre, h0, e3⟩).next e4) post n e6 e7
      omega
  refine ⟨hsub, ?_⟩
  have h2 := ((NMap.keys_nodup (Full.reach_lists ⟨s0, _, h0, hrun⟩).sorted).subperm hsub).length_le
  unfold NMap.keys at h2
  rwa [List.length_map] at h2

/-- C113: what is parked at a FullProducer was received at most its lifetime ago, or at most the time an Interest may wait and the 4000 ms
for which an Interest that has waited is parked; so not more Interests are parked than were received since then. -/
theorem c113_parked (cfg : Cfg) (hwf : cfg.WF) (old new : List Full.Op) (s0 s1 s : Full) (L : Nat) (h0 : Full.init cfg = .ok s0)
    (h1 : Full.run cfg s0 old = .ok s1) (h : Full.run cfg s1 new = .ok s) (hL : ∀ i, Full.Op.recvInterest i ∈ old → i.lifetime ≤ L)
    (hl : s1.now + L + cfg.lag < s.now) (ht : s1.now + (500 + cfg.lag) * 65535 + 4000 + cfg.lag < s.now) :
    s.pending.keys ⊆ heardNames new ∧ s.pending.length ≤ (heardNames new).length := by
  have hrun : Full.run cfg s0 (old ++ new) = .ok s := by
    unfold Full.run at *
    rw [foldRes_append, h1]
    exact h
  have hsub : s.pending.keys ⊆ heardNames new := by
    intro n hn
    rw [mem_heardNames]
    rcases c30_expires_partial cfg s0 s _ h0 hrun n hn with ⟨pre, i, post, s2, e1, e2, e3, e4⟩ | ⟨pre, op, post, s2, e1, e2, _, e4, e5⟩
    · rcases late_event h0 e1 e2 h1 with hi | ⟨hi, hle⟩
      · exact ⟨i, hi, e3⟩
      · have := hL i hi
        omega
    · obtain ⟨pre', i, post', s3, s4, f1, f2, f3, f4, f5, f6, f7⟩ := wait_origin h0 _ e2 n e4
      have he : old ++ new = pre' ++ Full.Op.recvInterest i :: (post' ++ op :: post) := by rw [e1, f1]; simp
      rcases late_event h0 he f3 h1 with hi | ⟨_, hle⟩
      · exact ⟨i, hi, f2⟩
      · have := c73_never_forever cfg hwf s4 s2 ((show Full.Reach cfg s3 from ⟨s0, pre', h0, f3⟩).next f4) post' n f6 f7
        omega
  refine ⟨hsub, ?_⟩
  have h2 := ((NMap.keys_nodup (Full.reach_lists ⟨s0, _, h0, hrun⟩).psorted).subperm hsub).length_le
  unfold NMap.keys at h2
  rwa [List.length_map] at h2

/-- C113: a FullProducer that has heard nothing for long enough keeps no Interest of anybody. -/
theorem c113_forgets (cfg : Cfg) (hwf : cfg.WF) (old new : List Full.Op) (s0 s1 s : Full) (L : Nat) (h0 : Full.init cfg = .ok s0)
    (h1 : Full.run cfg s0 old = .ok s1) (h : Full.run cfg s1 new = .ok s) (hL : ∀ i, Full.Op.recvInterest i ∈ old → i.lifetime ≤ L)
    (hnew : ∀ i, Full.Op.recvInterest i ∉ new)
    (hl : s1.now + L + cfg.lag < s.now) (ht : s1.now + (500 + cfg.lag) * 65535 + 4000 + cfg.lag < s.now) :
    s.waiting = [] ∧ s.pending = [] := by
  have hn : heardNames new = [] := by
    rw [List.eq_nil_iff_forall_not_mem]
    intro n hn
    obtain ⟨i, hi, _⟩ := mem_heardNames.mp hn
    exact hnew i hi
  have h2 := (c113_waiting cfg hwf old new s0 s1 s h0 h1 h (by omega)).2
  have h3 := (c113_parked cfg hwf old new s0 s1 s L h0 h1 h hL hl ht).2
  rw [hn] at h2 h3
  exact ⟨List.length_eq_zero_iff.mp (Nat.le_zero.mp h2), List.length_eq_zero_iff.mp (Nat.le_zero.mp h3)⟩

/-- A node that sends a sync Interest about every day. -/
def rareCfg : Cfg := { sampleCfg with lifetime := 200000000 }

/-- It gets an Interest that it parks and one that is ahead of it; the first expires, the second is retried twice and given up. -/
def rareOps : List Full.Op :=
  [.recvInterest emptyInterest, .recvInterest aheadInterest, .tick 101, .fireDelay, .tick 201, .fireDelay,
   .tick 1000, .expire emptyInterest.name]

/-- Non-vacuity for C113: after ten hours and one more Interest only that one waits; before, one was parked and one waited. -/
example : (Res.bind (Full.init rareCfg) fun s => Full.run rareCfg s (rareOps.take 2)).get?.map (fun s => (s.pending.keys, s.waiting.keys))
      = some ([emptyInterest.name], [aheadInterest.name]) ∧
    (Res.bind (Full.init rareCfg) fun s => Full.run rareCfg s (rareOps ++ [.tick 36000000])).get?.map
      (fun s => (s.now, s.pending.keys, s.waiting.keys)) = some (36000000, [], []) ∧
    (Res.bind (Full.init rareCfg) fun s => Full.run rareCfg s (rareOps ++ [.tick 36000000, .recvInterest aheadInterest])).get?.map
      (fun s => (s.now, s.pending.keys, s.waiting.keys)) = some (36000000, [], [aheadInterest.name]) := by decide +kernel

end PSync
