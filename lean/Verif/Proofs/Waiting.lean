import Verif.Proofs.Pending
/-!
What the handlers of a FullProducer do to the parked and the waiting Interests.
-/
namespace PSync
open Spec
namespace Full

/-- Effect of handling the Interest `i` on the clock, the parked and the waiting Interests. -/
structure Handled (i : Interest) (t : Bool) (s s' : Full) : Prop where
  now : s'.now = s.now
  park : ∀ n e, s'.pending.find n = some e → s.pending.find n = some e ∨ (n = i.name ∧ e.deadline = s.now + i.lifetime)
  psorted : s.pending.Sorted → s'.pending.Sorted
  other : ∀ k, k ≠ i.name → s'.waiting.find k = s.waiting.find k
  same : s'.waiting.find i.name = s.waiting.find i.name ∨
    (∃ w, s.waiting.find i.name = some w ∧ s'.waiting.find i.name = some { w with numTries := MAX_TRIES }) ∨
    (t = false ∧ s.waiting.find i.name = none ∧ s'.waiting.find i.name = some ⟨0, i.nonce⟩)
  sorted : s.waiting.Sorted → s'.waiting.Sorted

theorem Handled.refl (i : Interest) (t : Bool) (s : Full) : Handled i t s s :=
  ⟨rfl, fun _ _ h => Or.inl h, id, fun _ _ => rfl, Or.inl rfl, id⟩

/-- Fields of one state may be exchanged for equal ones. -/
theorem Handled.congr {i : Interest} {t : Bool} {s s1 s2 : Full} (h : Handled i t s s1) (hn : s2.now = s1.now)
    (hp : s2.pending = s1.pending) (hw : s2.waiting = s1.waiting) : Handled i t s s2 :=
  ⟨hn.trans h.now, by rw [hp]; exact h.park, by rw [hp]; exact h.psorted, by rw [hw]; exact h.other,
    by rw [hw]; exact h.same, by rw [hw]; exact h.sorted⟩

theorem Handled.of_core {i : Interest} {t : Bool} {s s1 s2 : Full} (h : Handled i t s s1) (hc : Core s1 s2) :
    Handled i t s s2 := h.congr hc.now hc.pending hc.waiting

theorem markWaiting_find (s : Full) (n k : Name) : (s.markWaiting n).waiting.find k =
    if n = k then (s.waiting.find k).map (fun w => { w with numTries := MAX_TRIES }) else s.waiting.find k := by
  unfold markWaiting
  split
  · rename_i w hw
    simp only [NMap.find_set]
    split
    · rename_i h; subst h; rw [hw]; rfl
    · rfl
  · rename_i hw
    split
    · rename_i h; subst h; rw [hw]; rfl
    · rfl

theorem markWaiting_sorted (s : Full) (n : Name) (h : s.waiting.Sorted) : (s.markWaiting n).waiting.Sorted := by
  unfold markWaiting
  split
  · exact NMap.sorted_set h _ _
  · exact h

theorem markWaiting_fields (s : Full) (n : Name) :
    (s.markWaiting n).now = s.now ∧ (s.markWaiting n).pending = s.pending := by
  rw [markWaiting_eq]; exact ⟨rfl, rfl⟩

theorem Handled.mark {i : Interest} {t : Bool} {s s1 : Full} (h : Handled i t s s1)
    (hw : s1.waiting.find i.name = s.waiting.find i.name) : Handled i t s (s1.markWaiting i.name) := by
  obtain ⟨h1, h2⟩ := markWaiting_fields s1 i.name
  refine ⟨h1.trans h.now, by rw [h2]; exact h.park, by rw [h2]; exact h.psorted, ?_, ?_, fun hs => markWaiting_sorted _ _ (h.sorted hs)⟩
  · intro k hk
    rw [markWaiting_find, if_neg (fun e => hk e.symm)]
    exact h.other k hk
  · rw [markWaiting_find, if_pos rfl, hw]
    cases hf : s.waiting.find i.name with
    | none => exact Or.inl rfl
    | some w => exact Or.inr (Or.inl ⟨w, rfl, rfl⟩)

theorem waitOrGiveUp_handled (cfg : Cfg) (s : Full) (i : Interest) (t : Bool) :
    Handled i t s (waitOrGiveUp cfg s i t).1 := by
  unfold waitOrGiveUp
  cases hw : s.waiting.find i.name with
  | none =>
    simp only
    cases t with
    | true => exact Handled.refl _ _ _
    | false =>
      simp only [Bool.not_false, if_true]
      rw [scheduleProcess_eq]
      refine ⟨rfl, fun _ _ h => Or.inl h, id, ?_, ?_, fun h => NMap.sorted_set h _ _⟩
      · intro k hk
        simp only [NMap.find_set, if_neg (fun e => hk (Eq.symm e))]
      · refine Or.inr (Or.inr ⟨rfl, hw, ?_⟩)
        simp only [NMap.find_set, if_true]
  | some w =>
    simp only
    cases t with
    | false => exact Handled.refl _ _ _
    | true =>
      simp only [if_true]
      split
      · exact (Handled.refl _ _ _).mark rfl
      · exact Handled.refl _ _ _

theorem onUndecodable_handled {cfg : Cfg} {s s' : Full} {i : Interest} {t : Bool} {n : Nat} {d : IBLTDiff}
    (h : onUndecodable cfg s i t n d = .ok s') : Handled i t s s' := by
  unfold onUndecodable at h
  split at h
  · have hw := waitOrGiveUp_handled cfg s i t
    generalize waitOrGiveUp cfg s i t = x at h hw
    obtain ⟨s1, g⟩ := x
    cases g
    · simp only [Res.ok.injEq] at h; subst h; exact hw
    · simp only at h
      exact hw.of_core (sendSyncInterest_core h)
  · split at h
    · cases h; exact Handled.refl _ _ _
    · simp only at h
      split at h
      · cases h; exact (Handled.refl _ _ _).mark rfl
      · simp only [Res.bind_eq_ok, Res.ok.injEq] at h
        obtain ⟨s1, h1, rfl⟩ := h
        have hc := sendSyncData_core h1
        apply Handled.mark
        · refine ⟨hc.now, ?_, ?_, ?_, Or.inl ?_, ?_⟩
          · intro n e he
            simp only [deletePending, NMap.find_erase, hc.pending] at he
            split at he
            · simp at he
            · exact Or.inl he
          · intro hs
            simp only [deletePending, hc.pending]
            exact NMap.sorted_erase hs _
          · intro k _
            simp only [deletePending, hc.waiting]
          · simp only [deletePending, hc.waiting]
          · intro hs
            simp only [deletePending, hc.waiting]
            exact hs
        · simp only [deletePending, hc.waiting]

theorem onDecoded_handled {cfg : Cfg} {s s' : Full} {i : Interest} {t : Bool} {ib : Table}
    {d : IBLTDiff} (h : onDecoded cfg s i t ib d = .ok s') : Handled i t s s' := by
  unfold onDecoded at h
  split at h
  · simp only [Res.ok.injEq] at h
    subst h
    have hp : Handled i t s { s with pending := s.pending.set i.name ⟨((s.pending.find i.name).getD ⟨ib, 0⟩).iblt, s.now + i.lifetime⟩ } := by
      refine ⟨rfl, ?_, fun hs => NMap.sorted_set hs _ _, fun _ _ => rfl, Or.inl rfl, id⟩
      intro n e he
      simp only [NMap.find_set] at he
      split at he
      · rename_i hn
        cases he
        exact Or.inr ⟨hn.symm, rfl⟩
      · exact Or.inl he
    split
    · exact hp.mark rfl
    · exact hp
  · split at h
    · simp only [Res.ok.injEq] at h
      subst h
      exact waitOrGiveUp_handled _ _ _ _
    · generalize collect d.negative s.base d.positive [] = x at h
      obtain ⟨content, b⟩ := x
      simp only at h
      split at h
      · cases h; exact (Handled.refl _ _ _).congr rfl rfl rfl
      · simp only [Res.bind_eq_ok, Res.ok.injEq] at h
        obtain ⟨s1, h2, rfl⟩ := h
        have hc := sendSyncData_core h2
        exact ((Handled.refl i t s).congr hc.now hc.pending hc.waiting).mark (by rw [hc.waiting])

theorem onSyncInterest_handled {cfg : Cfg} {s s' : Full} {i : Interest} {t : Bool}
    (h : onSyncInterest cfg s i t = .ok s') : Handled i t s s' := by
  rcases onSyncInterest_cases h with ⟨d, _, rfl⟩ | ⟨_, ⟨d, _, _, rfl⟩ | rfl | ⟨c2, c1, num, ib, df, _, _, _, _, _, _, h1⟩⟩
  · exact (Handled.refl _ _ _).congr rfl rfl rfl
  · exact (Handled.refl _ _ _).congr rfl rfl rfl
  · exact Handled.refl _ _ _
  · rcases h1 with ⟨_, h1⟩ | ⟨_, h1⟩
    · exact onUndecodable_handled h1
    · exact onDecoded_handled h1

/-- Only names of two components after the sync prefix are put on the waiting list. -/
theorem onSyncInterest_waits {cfg : Cfg} {s s' : Full} {i : Interest} {t : Bool}
    (h : onSyncInterest cfg s i t = .ok s') (hn : s.waiting.find i.name = none) :
    s'.waiting.find i.name = none ∨ (i.name.drop cfg.syncPrefix.length).length = 2 := by
  rcases onSyncInterest_cases h with ⟨d, _, rfl⟩ | ⟨_, ⟨d, _, _, rfl⟩ | rfl | ⟨c2, c1, num, ib, df, h2, _⟩⟩
  · exact Or.inl hn
  · exact Or.inl hn
  · exact Or.inl hn
  · exact Or.inr h2

theorem onSyncInterest_parks {cfg : Cfg} {s s' : Full} {i : Interest} {t : Bool}
    (h : onSyncInterest cfg s i t = .ok s') {n : Name} {e : FPending} (he : s'.pending.find n = some e) :
    s.pending.find n = some e ∨ (n.drop cfg.syncPrefix.length).length = 2 := by
  rcases (onSyncInterest_handled h).park n e he with h1 | ⟨rfl, _⟩
  · exact Or.inl h1
  · rcases onSyncInterest_cases h with ⟨d, _, rfl⟩ | ⟨_, ⟨d, _, _, rfl⟩ | rfl | ⟨c2, c1, num, ib, df, h2, _⟩⟩
    · exact Or.inl he
    · exact Or.inl he
    · exact Or.inl he
    · exact Or.inr h2

/-- Effect of one retry of `n`. -/
structure Retried (n : Name) (s s' : Full) : Prop where
  now : s'.now = s.now
  park : ∀ m e, s'.pending.find m = some e → s.pending.find m = some e ∨ (m = n ∧ e.deadline = s.now + defaultLifetime)
  psorted : s.pending.Sorted → s'.pending.Sorted
  other : ∀ k, k ≠ n → s'.waiting.find k = s.waiting.find k
  same : s'.waiting.find n = none ∨ ∃ w, s.waiting.find n = some w ∧ w.numTries + 1 < MAX_TRIES ∧
    s'.waiting.find n = some { w with numTries := w.numTries + 1 }
  sorted : s.waiting.Sorted → s'.waiting.Sorted

theorem processOne_retried {cfg : Cfg} {s s' : Full} {n : Name} (h : processOne cfg s n = .ok s')
    (hle : ∀ w, s.waiting.find n = some w → w.numTries ≤ MAX_TRIES) : Retried n s s' := by
  unfold processOne at h
  cases hw : s.waiting.find n with
  | none =>
    simp only [hw, Res.ok.injEq] at h
    subst h
    exact ⟨rfl, fun _ _ h => Or.inl h, id, fun _ _ => rfl, Or.inl hw, id⟩
  | some w =>
    simp only [hw] at h
    have hwle := hle w hw
    split at h
    · cases h
      refine ⟨rfl, fun _ _ h => Or.inl h, id, ?_, Or.inl ?_, fun h => NMap.sorted_erase h _⟩
      · intro k hk
        simp only [NMap.find_erase, if_neg (fun e => hk (Eq.symm e))]
      · simp [NMap.find_erase]
    · rename_i hmax
      simp only [Res.bind_eq_ok] at h
      obtain ⟨s1, h1, h2⟩ := h
      have hh := onSyncInterest_handled h1
      have hset : ∀ k, (s.waiting.set n { w with numTries := w.numTries + 1 }).find k =
          if n = k then some { w with numTries := w.numTries + 1 } else s.waiting.find k := fun k => NMap.find_set _ _ _ _
      have hother : ∀ k, k ≠ n → s1.waiting.find k = s.waiting.find k := by
        intro k hk
        rw [hh.other k hk]
        exact (hset k).trans (if_neg (fun e => hk e.symm))
      have hsame := hh.same
      simp only [hset, if_true] at hsame
      have hgone : ∀ k, (s1.waiting.erase n).find k = if n = k then none else s1.waiting.find k := fun k => NMap.find_erase _ _ _
      cases hw2 : s1.waiting.find n with
      | none =>
        rw [hw2] at hsame
        simp at hsame
      | some w2 =>
        simp only [hw2] at h2
        split at h2
        · cases h2
          refine ⟨hh.now, hh.park, hh.psorted, ?_, Or.inl ?_, fun h => NMap.sorted_erase (hh.sorted (NMap.sorted_set h _ _)) _⟩
          · intro k hk
            rw [hgone k, if_neg (fun e => hk e.symm)]
            exact hother k hk
          · rw [hgone, if_pos rfl]
        · rename_i hne
          cases h2
          refine ⟨hh.now, hh.park, hh.psorted, hother, ?_, fun h => hh.sorted (NMap.sorted_set h _ _)⟩
          rw [hw2] at hsame ⊢
          rcases hsame with h3 | ⟨w3, _, h3⟩ | ⟨h3, _⟩
          · cases h3
            refine Or.inr ⟨w, hw, ?_, rfl⟩
            simp only at hne
            omega
          · cases h3
            exact absurd rfl hne
          · cases h3

/-- Effect of a pass over the waiting list `ks`. -/
structure Passed (ks : List Name) (s s' : Full) : Prop where
  now : s'.now = s.now
  park : ∀ m e, s'.pending.find m = some e → s.pending.find m = some e ∨ (m ∈ ks ∧ e.deadline = s.now + defaultLifetime)
  psorted : s.pending.Sorted → s'.pending.Sorted
  other : ∀ k, k ∉ ks → s'.waiting.find k = s.waiting.find k
  same : ∀ k ∈ ks, s'.waiting.find k = none ∨ ∃ w, s.waiting.find k = some w ∧ w.numTries + 1 < MAX_TRIES ∧
    s'.waiting.find k = some { w with numTries := w.numTries + 1 }
  sorted : s.waiting.Sorted → s'.waiting.Sorted

theorem passed_loop {cfg : Cfg} (ks : List Name) : ∀ {s s' : Full}, ks.Nodup →
    (∀ k ∈ ks, ∀ w, s.waiting.find k = some w → w.numTries ≤ MAX_TRIES) →
    foldRes (processOne cfg) s ks = .ok s' → Passed ks s s' := by
  induction ks with
  | nil =>
    intro s s' _ _ h
    simp only [foldRes, Res.ok.injEq] at h
    subst h
    exact ⟨rfl, fun _ _ h => Or.inl h, id, fun _ _ => rfl, by simp, id⟩
  | cons n ks ih =>
    intro s s' hnd hle h
    rw [List.nodup_cons] at hnd
    simp only [foldRes, Res.bind_eq_ok] at h
    obtain ⟨s1, h1, h2⟩ := h
    have r := processOne_retried h1 (hle n (by simp))
    have hne : ∀ k ∈ ks, k ≠ n := fun k hk e => hnd.1 (e ▸ hk)
    have p := ih hnd.2 (fun k hk w hw => hle k (List.mem_cons_of_mem _ hk) w (by rw [← r.other k (hne k hk)]; exact hw)) h2
    refine ⟨p.now.trans r.now, ?_, p.psorted ∘ r.psorted, ?_, ?_, p.sorted ∘ r.sorted⟩
    · intro m e he
      rcases p.park m e he with h3 | ⟨h3, h4⟩
      · rcases r.park m e h3 with h5 | ⟨h5, h6⟩
        · exact Or.inl h5
        · exact Or.inr ⟨by simp [h5], h6⟩
      · exact Or.inr ⟨List.mem_cons_of_mem _ h3, by rw [h4, r.now]⟩
    · intro k hk
      simp only [List.mem_cons, not_or] at hk
      rw [p.other k hk.2, r.other k hk.1]
    · intro k hk
      rcases List.mem_cons.1 hk with rfl | hk
      · rw [p.other k hnd.1]
        exact r.same
      · rcases p.same k hk with h3 | ⟨w, h3, h4, h5⟩
        · exact Or.inl h3
        · exact Or.inr ⟨w, by rw [← r.other k (hne k hk)]; exact h3, h4, h5⟩

/-- Invariant of the two lists. -/
structure Lists (cfg : Cfg) (s : Full) : Prop where
  psorted : s.pending.Sorted
  sorted : s.waiting.Sorted
  tries : ∀ n w, s.waiting.find n = some w → w.numTries ≤ MAX_TRIES
  len : ∀ n w, s.waiting.find n = some w → (n.drop cfg.syncPrefix.length).length = 2
  plen : ∀ n e, s.pending.find n = some e → (n.drop cfg.syncPrefix.length).length = 2

theorem processWaiting_passed {cfg : Cfg} {s s' : Full} (hl : Lists cfg s) (h : processWaiting cfg s = .ok s') :
    Passed s.waiting.keys s s' :=
  passed_loop _ (NMap.keys_nodup hl.sorted) (fun k _ w hw => hl.tries k w hw) h

theorem Passed.lists {cfg : Cfg} {s s' : Full} (hl : Lists cfg s) (p : Passed s.waiting.keys s s') : Lists cfg s' := by
  refine ⟨p.psorted hl.psorted, p.sorted hl.sorted, ?_, ?_, ?_⟩
  · intro n w hw
    by_cases hk : n ∈ s.waiting.keys
    · rcases p.same n hk with h | ⟨w0, h0, h1, h2⟩
      · rw [h] at hw; cases hw
      · rw [h2] at hw; cases hw; exact h1.le
    · rw [p.other n hk] at hw
      exact hl.tries n w hw
  · intro n w hw
    by_cases hk : n ∈ s.waiting.keys
    · rcases p.same n hk with h | ⟨w0, h0, h1, h2⟩
      · rw [h] at hw; cases hw
      · exact hl.len n w0 h0
    · rw [p.other n hk] at hw
      exact hl.len n w hw
  · intro n e he
    rcases p.park n e he with h | ⟨h, _⟩
    · exact hl.plen n e h
    · rw [NMap.mem_keys, Option.isSome_iff_exists] at h
      obtain ⟨w, hw⟩ := h
      exact hl.len n w hw

/-- The lists only lose parked Interests. -/
structure Shrunk (s s' : Full) : Prop where
  now : s'.now = s.now
  park : ∀ m e, s'.pending.find m = some e → s.pending.find m = some e
  psorted : s.pending.Sorted → s'.pending.Sorted
  waiting : s'.waiting = s.waiting

theorem Shrunk.refl (s : Full) : Shrunk s s := ⟨rfl, fun _ _ h => h, id, rfl⟩

theorem Shrunk.trans {a b c : Full} (h : Shrunk a b) (h' : Shrunk b c) : Shrunk a c :=
  ⟨h'.now.trans h.now, fun m e he => h.park m e (h'.park m e he), h'.psorted ∘ h.psorted, h'.waiting.trans h.waiting⟩

theorem Shrunk.congr {s s1 s2 : Full} (h : Shrunk s s1) (hn : s2.now = s1.now)
    (hp : s2.pending = s1.pending) (hw : s2.waiting = s1.waiting) : Shrunk s s2 :=
  ⟨hn.trans h.now, by rw [hp]; exact h.park, by rw [hp]; exact h.psorted, hw.trans h.waiting⟩

theorem Shrunk.of_core {s s1 s2 : Full} (h : Shrunk s s1) (hc : Core s1 s2) : Shrunk s s2 :=
  h.congr hc.now hc.pending hc.waiting

theorem Shrunk.delete {s s1 : Full} (h : Shrunk s s1) (n : Name) : Shrunk s (s1.deletePending n) := by
  refine h.trans ⟨rfl, ?_, fun hs => NMap.sorted_erase hs _, rfl⟩
  intro m e he
  simp only [deletePending, NMap.find_erase] at he
  split at he
  · cases he
  · exact he

theorem Shrunk.lists {cfg : Cfg} {s s' : Full} (hl : Lists cfg s) (h : Shrunk s s') : Lists cfg s' :=
  ⟨h.psorted hl.psorted, by rw [h.waiting]; exact hl.sorted, by rw [h.waiting]; exact hl.tries, by rw [h.waiting]; exact hl.len,
    fun n e he => hl.plen n e (h.park n e he)⟩

theorem call_shrunk {cfg : Cfg} {s s' : Full} {c : Call} (h : call cfg s c = .ok s') : Shrunk s s' := by
  cases c with
  | addUserNode p =>
    simp only [call, Res.ok.injEq] at h
    subst h
    exact (Shrunk.refl s).congr rfl rfl rfl
  | removeUserNode p =>
    simp only [call, Res.bind_eq_ok, Res.ok.injEq] at h
    obtain ⟨b, h1, rfl⟩ := h
    exact (Shrunk.refl s).congr rfl rfl rfl
  | publishName p q =>
    simp only [call, publishName] at h
    split at h
    · cases h; exact Shrunk.refl s
    · rename_i cur _
      simp only [Res.bind_eq_ok] at h
      obtain ⟨b, _, h2⟩ := h
      have h0 : Shrunk s { s with base := b, waitOut := false, made := s.made ++ [(p, newSeq q cur)] } :=
        (Shrunk.refl s).congr rfl rfl rfl
      unfold satisfyPending at h2
      refine h0.trans (foldRes_rel (Q := fun a b : Full => Shrunk a b) Shrunk.refl
        (fun _ _ _ => Shrunk.trans) _ ?_ h2)
      intro a e b' _ h3
      unfold satisfyOne at h3
      simp only [Res.bind_eq_ok, Res.ok.injEq] at h3
      obtain ⟨d, _, s1, h4, rfl⟩ := h3
      exact ((Shrunk.refl a).of_core (sendSyncData_core h4)).delete _

theorem calls_shrunk {cfg : Cfg} {s s' : Full} {cs : List Call} (h : foldRes (call cfg) s cs = .ok s') : Shrunk s s' :=
  foldRes_rel (Q := fun a b : Full => Shrunk a b) Shrunk.refl (fun _ _ _ => Shrunk.trans) cs
    (fun _ _ _ _ => call_shrunk) h

/-- Effect of one event on the parked and the waiting Interests. -/
inductive ListStep (cfg : Cfg) (s : Full) (op : Op) (s' : Full) : Prop
  | shrink : Shrunk s s' → ListStep cfg s op s'
  | time (t : Nat) : op = .tick t → s.now ≤ t → s.timersAfter cfg t = true → s' = { s with now := t } → ListStep cfg s op s'
  | interest (i : Interest) : op = .recvInterest i → Handled i false s s' →
      (s.waiting.find i.name = none → s'.waiting.find i.name = none ∨ (i.name.drop cfg.syncPrefix.length).length = 2) →
      (∀ n e, s'.pending.find n = some e → s.pending.find n = some e ∨ (n.drop cfg.syncPrefix.length).length = 2) →
      ListStep cfg s op s'
  | retry (s1 : Full) : (op = .fireDelay ∨ ∃ buf acts, op = .complete buf acts) → Shrunk s s1 →
      Passed s1.waiting.keys s1 s' → ListStep cfg s op s'

theorem step_lists {cfg : Cfg} {s s' : Full} {op : Op} (hl : Lists cfg s) (h : step cfg s op = .ok s') :
    ListStep cfg s op s' := by
  cases op with
  | call c => exact .shrink (call_shrunk h)
  | recvInterest i =>
    simp only [step] at h
    split at h
    · exact .interest i rfl (onSyncInterest_handled h) (onSyncInterest_waits h) (fun _ _ => onSyncInterest_parks h)
    · cases h; exact .shrink (Shrunk.refl _)
  | segment f =>
    simp only [step] at h
    split at h
    · cases h
      refine .shrink ?_
      split <;> exact (Shrunk.refl _).congr rfl rfl rfl
    · cases h; exact .shrink (Shrunk.refl _)
  | complete buf acts =>
    simp only [step] at h
    split at h
    · split at h
      · unfold onSyncData at h
        simp only at h
        have h0 : ∀ n, Shrunk s (s.stopFetcher.deletePending n) := fun n =>
          ((Shrunk.refl s).congr rfl rfl rfl : Shrunk s s.stopFetcher).delete n
        split at h
        · cases h; exact .shrink (h0 _)
        · simp only [Res.bind_eq_ok] at h
          obtain ⟨r, h1, h2⟩ := h
          split at h2
          · cases h2; exact .shrink ((h0 _).congr rfl rfl rfl)
          · simp only [Res.bind_eq_ok] at h2
            obtain ⟨s1, h3, h4⟩ := h2
            have h5 := calls_shrunk h3
            have h6 : Shrunk s s1 := by
              refine Shrunk.trans ?_ h5
              exact (h0 _).congr rfl rfl rfl
            have h7 : Shrunk s { s1 with
              sched := some (s1.now + cfg.jitter s1.draws, .renew)
              draws := s1.draws + 1
              waitOut := false } := h6.congr rfl rfl rfl
            exact .retry _ (Or.inr ⟨buf, acts, rfl⟩) h7 (processWaiting_passed (h7.lists hl) h4)
      · cases h; exact .shrink (Shrunk.refl _)
    · cases h; exact .shrink (Shrunk.refl _)
  | error t =>
    simp only [step] at h
    split at h
    · split at h
      · cases h
        refine .shrink ?_
        split <;> exact (Shrunk.refl _).congr rfl rfl rfl
      · cases h; exact .shrink (Shrunk.refl _)
    · cases h; exact .shrink (Shrunk.refl _)
  | tick t =>
    simp only [step, Res.ok.injEq] at h
    subst h
    split
    · rename_i ht
      simp only [Bool.and_eq_true, decide_eq_true_eq] at ht
      exact .time t rfl ht.1 ht.2 rfl
    · exact .shrink (Shrunk.refl _)
  | fireSync =>
    refine .shrink ?_
    simp only [step] at h
    split at h
    · split at h
      · split at h
        · have hc := sendSyncInterest_core h
          exact (Shrunk.refl s).congr hc.now hc.pending hc.waiting
        · have hc := sendSyncInterest_core h
          exact (Shrunk.refl s).congr hc.now hc.pending hc.waiting
      · cases h; exact Shrunk.refl _
    · cases h; exact Shrunk.refl _
  | fireDelay =>
    simp only [step] at h
    split at h
    · split at h
      · simp only [Res.bind_eq_ok, Res.ok.injEq] at h
        obtain ⟨s1, h1, rfl⟩ := h
        have h2 : Shrunk s { s with delayTimer := none } := (Shrunk.refl s).congr rfl rfl rfl
        have h3 := processWaiting_passed (h2.lists hl) h1
        refine .retry _ (Or.inl rfl) h2 ?_
        rw [scheduleProcess_eq]
        exact ⟨h3.now, h3.park, h3.psorted, h3.other, h3.same, h3.sorted⟩
      · cases h; exact .shrink (Shrunk.refl _)
    · cases h; exact .shrink (Shrunk.refl _)
  | expire n =>
    simp only [step] at h
    split at h
    · cases h
      refine .shrink ?_
      split
      · exact (Shrunk.refl _).delete _
      · exact Shrunk.refl _
    · cases h; exact .shrink (Shrunk.refl _)
  | fireStore =>
    simp only [step, Res.ok.injEq] at h
    subst h
    exact .shrink ((Shrunk.refl _).congr rfl rfl rfl)

theorem Handled.lists {cfg : Cfg} {i : Interest} {s s' : Full} (hl : Lists cfg s) (h : Handled i false s s')
    (hlen : s.waiting.find i.name = none → s'.waiting.find i.name = none ∨ (i.name.drop cfg.syncPrefix.length).length = 2)
    (hplen : ∀ n e, s'.pending.find n = some e → s.pending.find n = some e ∨ (n.drop cfg.syncPrefix.length).length = 2) :
    Lists cfg s' := by
  refine ⟨h.psorted hl.psorted, h.sorted hl.sorted, ?_, ?_, fun n e he => (hplen n e he).elim (hl.plen n e) id⟩
  · intro n w hw
    by_cases hn : n = i.name
    · subst hn
      rcases h.same with h1 | ⟨w0, h0, h1⟩ | ⟨_, _, h1⟩
      · exact hl.tries _ _ (h1 ▸ hw)
      · rw [h1] at hw; cases hw; exact Nat.le_refl _
      · rw [h1] at hw; cases hw; exact Nat.zero_le _
    · rw [h.other n hn] at hw; exact hl.tries n w hw
  · intro n w hw
    by_cases hn : n = i.name
    · subst hn
      cases hf : s.waiting.find i.name with
      | none =>
        rcases hlen hf with h1 | h1
        · rw [h1] at hw; cases hw
        · exact h1
      | some w0 => exact hl.len _ _ hf
    · rw [h.other n hn] at hw; exact hl.len n w hw

theorem ListStep.lists {cfg : Cfg} {s s' : Full} {op : Op} (hl : Lists cfg s) (h : ListStep cfg s op s') : Lists cfg s' := by
  cases h with
  | shrink h => exact h.lists hl
  | time t _ _ _ h => subst h; exact ⟨hl.psorted, hl.sorted, hl.tries, hl.len, hl.plen⟩
  | interest i _ h hlen hplen => exact h.lists hl hlen hplen
  | retry s1 _ h p => exact p.lists (h.lists hl)

theorem init_lists {cfg : Cfg} {s : Full} (h : init cfg = .ok s) : Lists cfg s ∧ s.pending = [] ∧ s.waiting = [] := by
  have hc := sendSyncInterest_core h
  have hp : s.pending = [] := hc.pending
  have hw : s.waiting = [] := hc.waiting
  refine ⟨⟨?_, ?_, ?_, ?_, ?_⟩, hp, hw⟩
  · rw [hp]; exact NMap.sorted_nil
  · rw [hw]; exact NMap.sorted_nil
  · intro n w h; rw [hw] at h; cases h
  · intro n w h; rw [hw] at h; cases h
  · intro n w h; rw [hp] at h; cases h

theorem run_lists {cfg : Cfg} {s s' : Full} {ops : List Op} (hl : Lists cfg s) (h : run cfg s ops = .ok s') : Lists cfg s' :=
  foldRes_inv (P := Lists cfg) _ (fun _ _ _ _ hl h => (step_lists hl h).lists hl) hl h

theorem reach_lists {cfg : Cfg} {s : Full} (h : Reach cfg s) : Lists cfg s := by
  obtain ⟨s0, ops, h1, h2⟩ := h
  exact run_lists (init_lists h1).1 h2

/-! ### Interests that are ahead of us -/

/-- A timed retry of such an Interest is `waitOrGiveUp`, possibly followed by a sync Interest. -/
theorem onSyncInterest_ahead {cfg : Cfg} {s s' : Full} {i : Interest} {t : Bool} (ha : AheadOf cfg s.pub s.base i.name)
    (h : onSyncInterest cfg s i t = .ok s') : Core (waitOrGiveUp cfg s i t).1 s' := by
  obtain ⟨hst, c2, c1, num, ib, df, e1, e2, e3, e4, e5, e6, e7⟩ := ha
  unfold onSyncInterest at h
  simp only [hst, e2, e3, e4, e5, e6, Res.ok_bind] at h
  rw [if_neg (by omega), if_neg (by omega)] at h
  rcases e7 with ⟨h1, e7⟩ | ⟨h1, e7, e8⟩
  · simp only [h1, Bool.not_false, if_true] at h
    unfold onUndecodable at h
    rw [if_pos e7] at h
    generalize waitOrGiveUp cfg s i t = x at h
    obtain ⟨s1, g⟩ := x
    cases g
    · simp only [Res.ok.injEq] at h; subst h; exact Core.refl _
    · exact sendSyncInterest_core h
  · simp only [h1, Bool.not_true, Bool.false_eq_true, if_false] at h
    unfold onDecoded at h
    simp only [e7, List.isEmpty_nil, Bool.true_and, List.isEmpty_iff, e8, if_false, if_true, Res.ok.injEq] at h
    subst h
    exact Core.refl _

/-- A second or later retry that finds the Interest ahead drops it. -/
theorem processOne_ahead {cfg : Cfg} {s s' : Full} {n : Name} (ha : AheadOf cfg s.pub s.base n)
    (hw : ∀ w, s.waiting.find n = some w → 1 ≤ w.numTries) (h : processOne cfg s n = .ok s') :
    s'.waiting.find n = none := by
  unfold processOne at h
  cases hf : s.waiting.find n with
  | none => simp only [hf, Res.ok.injEq] at h; subst h; exact hf
  | some w =>
    have hw1 := hw w hf
    simp only [hf] at h
    split at h
    · cases h
      simp [NMap.find_erase]
    · simp only [Res.bind_eq_ok] at h
      obtain ⟨s1, h1, h2⟩ := h
      have hset : (s.waiting.set n { w with numTries := w.numTries + 1 }).find n =
          some { w with numTries := w.numTries + 1 } := (NMap.find_set _ _ _ _).trans (if_pos rfl)
      have hc := onSyncInterest_ahead
        (s := { s with waiting := s.waiting.set n { w with numTries := w.numTries + 1 } }) ha h1
      have hs1 : s1.waiting.find n = some { w with numTries := MAX_TRIES } := by
        rw [hc.waiting]
        unfold waitOrGiveUp
        simp only [hset, if_true]
        rw [if_pos (by omega)]
        rw [markWaiting_find, if_pos rfl]
        simp only [hset, Option.map_some]
      simp only [hs1, if_true] at h2
      cases h2
      simp [NMap.find_erase]

theorem prefix_eq_of_length {α : Type} {a b c : List α} (h1 : a <+: c) (h2 : b <+: c) (hl : a.length = b.length) : a = b := by
  rw [List.prefix_iff_eq_take] at h1 h2
  rw [h1, h2, hl]

theorem publish_other {limit now v : Nat} {p : SegPub} {m n : Name} {buf : Bytes} {fr : Nat}
    {r : SegPub × List Data} (h : p.publish limit now v m m buf fr = .ok r) (hl : m.length = n.length) (hne : m ≠ n)
    (hn : p.replyFromStore n = none) : r.1.replyFromStore n = none := by
  unfold SegPub.replyFromStore at hn ⊢
  rw [storeFind_none] at hn ⊢
  intro x hx
  obtain ⟨h1, _⟩ := PSync.publish_ok h
  rw [h1] at hx
  rcases storeFold_mem _ hx with hx | hx
  · exact hn x hx
  · obtain ⟨k, hk⟩ := List.mem_iff_getElem?.1 hx
    have hname := (segmentData_spec _ _ _).name k x hk
    rw [← Bool.not_eq_true, List.isPrefixOf_iff_prefix]
    intro hp
    have hm : m <+: x.name := by
      rw [hname, Name.appendVersion, List.append_assoc]
      exact List.prefix_append _ _
    exact hne (prefix_eq_of_length hm hp hl)

/-- Handling an Interest does not store packets for another name of the same length. -/
theorem onSyncInterest_other {cfg : Cfg} {s s' : Full} (hs : s.base.Inv) {i : Interest} {t : Bool} {n : Name}
    (h : onSyncInterest cfg s i t = .ok s') (hl : i.name.length = n.length) (hne : i.name ≠ n)
    (hn : s.pub.replyFromStore n = none) : s'.pub.replyFromStore n = none := by
  rcases onSyncInterest_cases h with ⟨d, _, rfl⟩ | ⟨_, ⟨d, _, _, rfl⟩ | rfl | ⟨c2, c1, num, ib, df, _, _, _, _, _, _, h1⟩⟩
  · exact hn
  · exact hn
  · exact hn
  · rcases h1 with ⟨_, h1⟩ | ⟨_, h1⟩
    · rcases onUndecodable_reply h1 with ⟨h2, _⟩ | ⟨⟨_, r, _, _, h2, h3, _⟩, _⟩
      · rw [h2]; exact hn
      · rw [h3]; exact publish_other h2 hl hne hn
    · rcases (onDecoded_reply hs h1).2 with ⟨h2, _⟩ | ⟨_, ⟨_, r, _, _, h2, h3, _⟩, _⟩
      · rw [h2]; exact hn
      · rw [h3]; exact publish_other h2 hl hne hn

theorem processOne_other {cfg : Cfg} {s s' : Full} (hs : s.base.Inv) {m n : Name}
    (h : processOne cfg s m = .ok s') (hl : m.length = n.length) (hne : m ≠ n)
    (hn : s.pub.replyFromStore n = none) : s'.pub.replyFromStore n = none := by
  unfold processOne at h
  cases hw : s.waiting.find m with
  | none => simp only [hw, Res.ok.injEq] at h; subst h; exact hn
  | some w =>
    simp only [hw] at h
    split at h
    · cases h; exact hn
    · simp only [Res.bind_eq_ok] at h
      obtain ⟨s1, h1, h2⟩ := h
      have h3 := onSyncInterest_other
        (s := { s with waiting := s.waiting.set m { w with numTries := w.numTries + 1 } }) hs h1 hl hne hn
      cases hw2 : s1.waiting.find m with
      | none => simp only [hw2, Res.ok.injEq] at h2; subst h2; exact h3
      | some w2 =>
        simp only [hw2] at h2
        split at h2
        · cases h2; exact h3
        · cases h2; exact h3

theorem pass_ahead {cfg : Cfg} {n : Name} (ks : List Name) : ∀ {s s' : Full}, ks.Nodup → n ∈ ks → s.base.Inv →
    (∀ k ∈ ks, k.length = n.length) → (∀ k ∈ ks, ∀ w, s.waiting.find k = some w → w.numTries ≤ MAX_TRIES) →
    AheadOf cfg s.pub s.base n → (∀ w, s.waiting.find n = some w → 1 ≤ w.numTries) →
    foldRes (processOne cfg) s ks = .ok s' → s'.waiting.find n = none := by
  induction ks with
  | nil => intro s s' _ h; cases h
  | cons k ks ih =>
    intro s s' hnd hmem hs hlen hle ha hw h
    rw [List.nodup_cons] at hnd
    simp only [foldRes, Res.bind_eq_ok] at h
    obtain ⟨s1, h1, h2⟩ := h
    have hb := processOne_base hs h1
    have r := processOne_retried h1 (hle k (by simp))
    have hle' : ∀ k' ∈ ks, ∀ w, s1.waiting.find k' = some w → w.numTries ≤ MAX_TRIES := by
      intro k' hk' w hw'
      rw [r.other k' (fun e => hnd.1 (e ▸ hk'))] at hw'
      exact hle k' (List.mem_cons_of_mem _ hk') w hw'
    by_cases hk : k = n
    · subst hk
      have h3 := processOne_ahead ha hw h1
      rw [(passed_loop ks hnd.2 hle' h2).other k hnd.1]
      exact h3
    · have hmem' : n ∈ ks := by
        rcases List.mem_cons.1 hmem with h | h
        · exact absurd h.symm hk
        · exact h
      refine ih hnd.2 hmem' (hb.symm ▸ hs) (fun k' hk' => hlen k' (List.mem_cons_of_mem _ hk')) hle' ?_ ?_ h2
      · refine ⟨processOne_other hs h1 (hlen k (by simp)) hk ha.1, ?_⟩
        rw [hb]
        exact ha.2
      · intro w hw'
        rw [r.other n (fun e => hk e.symm)] at hw'
        exact hw w hw'

/-- A call stores no packets for a name that is not parked. -/
theorem call_other {cfg : Cfg} {s s' : Full} {c : Call} {n : Name} (hl : Lists cfg s)
    (hlen : (n.drop cfg.syncPrefix.length).length = 2) (hp : n ∉ s.pending.keys)
    (hn : s.pub.replyFromStore n = none) (h : call cfg s c = .ok s') : s'.pub.replyFromStore n = none := by
  cases c with
  | addUserNode p =>
    simp only [call, Res.ok.injEq] at h
    subst h
    exact hn
  | removeUserNode p =>
    simp only [call, Res.bind_eq_ok, Res.ok.injEq] at h
    obtain ⟨b, h1, rfl⟩ := h
    exact hn
  | publishName p q =>
    simp only [call, publishName] at h
    split at h
    · cases h; exact hn
    · rename_i cur _
      simp only [Res.bind_eq_ok] at h
      obtain ⟨b, _, h2⟩ := h
      unfold satisfyPending at h2
      refine foldRes_inv (P := fun a : Full => a.pub.replyFromStore n = none) s.pending ?_
        (s := { s with base := b, waitOut := false, made := s.made ++ [(p, newSeq q cur)] }) hn h2
      intro a e b' he ha h3
      obtain ⟨_, _, _, _, _, r, _, _, h4, h5, _⟩ := satisfyOne_replied h3
      rw [h5]
      have hf := NMap.find_of_mem hl.psorted he
      have h6 := hl.plen e.1 e.2 hf
      rw [List.length_drop] at h6 hlen
      refine publish_other h4 (by omega) ?_ ha
      rintro rfl
      exact hp (by rw [NMap.mem_keys, hf]; rfl)

theorem calls_other {cfg : Cfg} {n : Name} (cs : List Call) : ∀ {s s' : Full}, Lists cfg s →
    (n.drop cfg.syncPrefix.length).length = 2 → n ∉ s.pending.keys → s.pub.replyFromStore n = none →
    foldRes (call cfg) s cs = .ok s' → s'.pub.replyFromStore n = none := by
  induction cs with
  | nil => intro s s' _ _ _ hn h; simp only [foldRes, Res.ok.injEq] at h; rw [← h]; exact hn
  | cons c cs ih =>
    intro s s' hl hlen hp hn h
    simp only [foldRes, Res.bind_eq_ok] at h
    obtain ⟨s1, h1, h2⟩ := h
    have hs := call_shrunk h1
    refine ih (hs.lists hl) hlen ?_ (call_other hl hlen hp hn h1) h2
    intro hm
    rw [NMap.mem_keys, Option.isSome_iff_exists] at hm
    obtain ⟨e, he⟩ := hm
    exact hp (by rw [NMap.mem_keys, hs.park n e he]; rfl)

end Full
end PSync
