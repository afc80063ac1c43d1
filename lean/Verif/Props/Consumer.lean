import Verif.Proofs.Consumer
import Verif.Spec.Consumer
import Verif.Props.PartialSync
/-!
Properties C46–C52: the consumer of partial synchronisation.
-/
namespace PSync
open Spec

/-! ### C46 -/

theorem Spec.Tiles.trans {a b c : Nat} {l l' : List (Nat × Nat)} (h : Tiles a l b) (h' : Tiles b l' c) :
    Tiles a (l ++ l') c := by
  induction h with
  | nil a => exact h'
  | cons h l hle _ ih => exact .cons h _ hle (ih h')

theorem Spec.Tiles.le {a b : Nat} {l : List (Nat × Nat)} (h : Tiles a l b) : a ≤ b := by
  induction h with
  | nil a => exact le_refl _
  | cons h l hle _ ih => omega

namespace Cons

/-- The number a consumer knows for `p`, zero if none. -/
abbrev seqOf (s : Cons) (p : Name) : Nat := (s.getSeqNo p).getD 0

/-- From `s` to `s'` the ranges reported for `p` follow each other and account for the change of number. -/
def TileRel (p : Name) (s s' : Cons) : Prop :=
  ∃ ext, s'.log = s.log ++ ext ∧ Tiles (s.seqOf p) (notified p ext) (s'.seqOf p) ∧
    ((s.getSeqNo p).isSome → (s'.getSeqNo p).isSome ∧ ∀ r ∈ notified p ext, r.1 ≤ r.2)

theorem TileRel.refl (p : Name) (s : Cons) : TileRel p s s := ⟨[], by simp, .nil _, fun h => ⟨h, by simp [notified]⟩⟩

theorem TileRel.trans {p : Name} {a b c : Cons} (h : TileRel p a b) (h' : TileRel p b c) : TileRel p a c := by
  obtain ⟨e, h1, h2, h3⟩ := h
  obtain ⟨e', h1', h2', h3'⟩ := h'
  refine ⟨e ++ e', by rw [h1', h1, List.append_assoc], by rw [notified_append]; exact h2.trans h2', fun hk => ?_⟩
  obtain ⟨k1, k2⟩ := h3 hk
  obtain ⟨k3, k4⟩ := h3' k1
  refine ⟨k3, fun r hr => ?_⟩
  rw [notified_append, List.mem_append] at hr
  exact hr.elim (k2 r) (k4 r)

/-- Steps that neither report nor change `p`. -/
theorem TileRel.quiet {p : Name} {s s' : Cons} {ext : List Out} (h1 : s'.log = s.log ++ ext)
    (h2 : s'.getSeqNo p = s.getSeqNo p) (h3 : notified p ext = []) : TileRel p s s' :=
  ⟨ext, h1, by rw [h3, seqOf, seqOf, h2]; exact .nil _, fun h => ⟨by rw [h2]; exact h, by simp [h3]⟩⟩

/-- The calls that do not end or begin a subscription of `p`. -/
def Keeps (p : Name) (s : Cons) (c : Call) : Prop :=
  c ≠ .removeSubscription p ∧ ((s.getSeqNo p).isSome ∨ ∀ seq cb, c ≠ .addSubscription p seq cb)

theorem call_quiet {cfg : CCfg} {p : Name} {s s' : Cons} {c : Call} (hk : Keeps p s c) (h : call cfg s c = .ok s') :
    ∃ ext, s'.log = s.log ++ ext ∧ s'.getSeqNo p = s.getSeqNo p ∧ notified p ext = [] := by
  cases c with
  | addSubscription q seq cb =>
    simp only [Cons.call, Res.bind_eq_ok, Res.ok.injEq] at h
    obtain ⟨⟨r, s1⟩, h1, rfl⟩ := h
    rcases addSubscription_ok h1 with ⟨_, _, rfl⟩ | ⟨hx, _, bf, hbf, hp, hsub, hb, _, hl⟩
    · exact ⟨[], by simp, rfl, rfl⟩
    · have hne : q ≠ p := by
        rintro rfl
        rcases hk.2 with h | h
        · rw [getSeqNo, hx] at h; simp at h
        · exact h seq cb rfl
      refine ⟨_, hl, ?_, ?_⟩
      · rw [getSeqNo, getSeqNo, hp, NMap.find_set, if_neg hne]
      · split <;> simp [notified, hne]
  | removeSubscription q =>
    simp only [Cons.call, Res.bind_eq_ok, Res.ok.injEq] at h
    obtain ⟨⟨r, s1⟩, h1, rfl⟩ := h
    rcases removeSubscription_ok h1 with ⟨_, _, rfl⟩ | ⟨hx, _, bf, hbf, rfl⟩
    · exact ⟨[], by simp, rfl, rfl⟩
    · refine ⟨[], by simp, ?_, rfl⟩
      rw [getSeqNo, getSeqNo, NMap.find_erase, if_neg]
      rintro rfl
      exact hk.1 rfl
  | sendHello =>
    simp only [Cons.call, Res.ok.injEq] at h
    subst h
    exact ⟨[_], rfl, rfl, rfl⟩
  | sendSync =>
    obtain ⟨_, cs, _, rfl⟩ := sendSyncInterest_ok (show s.sendSyncInterest cfg = .ok s' from h)
    exact ⟨[_], rfl, rfl, rfl⟩
  | stop =>
    simp only [Cons.call, Res.ok.injEq] at h
    subst h
    exact ⟨[], by simp [stop], rfl, rfl⟩

theorem calls_quiet {cfg : CCfg} {p : Name} {cs : List Call} : ∀ {s s' : Cons}, (∀ c ∈ cs, Keeps p s c) →
    foldRes (call cfg) s cs = .ok s' →
    ∃ ext, s'.log = s.log ++ ext ∧ s'.getSeqNo p = s.getSeqNo p ∧ notified p ext = [] := by
  induction cs with
  | nil =>
    intro s s' _ h
    simp only [foldRes, Res.ok.injEq] at h
    subst h
    exact ⟨[], by simp, rfl, rfl⟩
  | cons c cs ih =>
    intro s s' hk h
    simp only [foldRes, Res.bind_eq_ok] at h
    obtain ⟨s1, h1, h2⟩ := h
    obtain ⟨e, k1, k2, k3⟩ := call_quiet (hk c List.mem_cons_self) h1
    obtain ⟨e', k1', k2', k3'⟩ := ih (fun c' hc' => by
      have := hk c' (List.mem_cons_of_mem _ hc')
      unfold Keeps
      rw [k2]
      exact this) h2
    exact ⟨e ++ e', by rw [k1', k1, List.append_assoc], k2'.trans k2, by rw [notified_append, k3, k3']; rfl⟩

/-- The ranges for `p` collected while a sync content is processed. -/
abbrev rangesOf (p : Name) (us : List MissingDataInfo) : List (Nat × Nat) :=
  (us.filter (fun u => u.pfx = p)).map (fun u => (u.lowSeq, u.highSeq))

theorem rangesOf_snoc (p q : Name) (us : List MissingDataInfo) (a b f : Nat) :
    rangesOf p (us ++ [⟨q, a, b, f⟩]) = rangesOf p us ++ (if q = p then [(a, b)] else []) := by
  unfold rangesOf
  rw [List.filter_append, List.map_append]
  split <;> rename_i h <;> simp [h]

theorem sync_tiles {names : List Name} {a r : NMap Nat × List MissingDataInfo} (p : Name)
    (h : foldRes syncStep a names = .ok r) :
    ∃ ext, r.2 = a.2 ++ ext ∧ Tiles ((a.1.find p).getD 0) (rangesOf p ext) ((r.1.find p).getD 0) ∧
      ((a.1.find p).isSome → (r.1.find p).isSome ∧ ∀ x ∈ rangesOf p ext, x.1 ≤ x.2) := by
  refine foldRes_rel (Q := fun a r : NMap Nat × List MissingDataInfo => ∃ ext, r.2 = a.2 ++ ext ∧
    Tiles ((a.1.find p).getD 0) (rangesOf p ext) ((r.1.find p).getD 0) ∧
      ((a.1.find p).isSome → (r.1.find p).isSome ∧ ∀ x ∈ rangesOf p ext, x.1 ≤ x.2))
    (fun s => ⟨[], by simp, .nil _, fun h => ⟨h, by simp⟩⟩) ?_ names ?_ h
  · rintro a b c ⟨e, h1, h2, h3⟩ ⟨e', h1', h2', h3'⟩
    refine ⟨e ++ e', by rw [h1', h1, List.append_assoc], ?_, fun hk => ?_⟩
    · have : rangesOf p (e ++ e') = rangesOf p e ++ rangesOf p e' := by simp [rangesOf]
      rw [this]
      exact h2.trans h2'
    · obtain ⟨k1, k2⟩ := h3 hk
      obtain ⟨k3, k4⟩ := h3' k1
      refine ⟨k3, fun x hx => ?_⟩
      have : rangesOf p (e ++ e') = rangesOf p e ++ rangesOf p e' := by simp [rangesOf]
      rw [this, List.mem_append] at hx
      exact hx.elim (k2 x) (k4 x)
  · intro s n s' _ hst
    obtain ⟨q, x, _, hx, ⟨hf, h⟩ | ⟨c, hf, hc, h⟩ | ⟨c, hf, hc, h⟩⟩ := syncStep_ok hst
    · subst h
      refine ⟨[⟨q, 1, x, 0⟩], rfl, ?_, ?_⟩
      · rw [← List.nil_append [_], rangesOf_snoc]
        simp only [NMap.find_set]
        split
        · rename_i hq; subst hq
          rw [hf]
          exact .cons x [] (Nat.zero_le _) (.nil _)
        · exact .nil _
      · intro hk
        refine ⟨find_set_isSome hk, fun y hy => ?_⟩
        rw [← List.nil_append [_], rangesOf_snoc] at hy
        split at hy
        · rename_i hq; subst hq; rw [hf] at hk; simp at hk
        · simp [rangesOf] at hy
    · subst h
      refine ⟨[⟨q, c + 1, x, 0⟩], rfl, ?_, ?_⟩
      · rw [← List.nil_append [_], rangesOf_snoc]
        simp only [NMap.find_set]
        split
        · rename_i hq; subst hq
          rw [hf]
          exact .cons x [] (Nat.le_of_lt hc) (.nil _)
        · exact .nil _
      · intro hk
        refine ⟨find_set_isSome hk, fun y hy => ?_⟩
        rw [← List.nil_append [_], rangesOf_snoc] at hy
        split at hy
        · simp only [rangesOf, List.filter_nil, List.map_nil, List.nil_append, List.mem_singleton] at hy
          subst hy; exact hc
        · simp [rangesOf] at hy
    · subst h
      exact ⟨[], by simp, .nil _, fun h => ⟨h, by simp⟩⟩

theorem hello_tiles {subs : NMap Unit} {names : List Name} {a r : NMap Nat × List MissingDataInfo × NMap Nat} (p : Name)
    (hk : ∀ p, (subs.find p).isSome → (a.1.find p).isSome) (h : foldRes (helloStep subs) a names = .ok r) :
    ∃ ext, r.2.1 = a.2.1 ++ ext ∧ Tiles ((a.1.find p).getD 0) (rangesOf p ext) ((r.1.find p).getD 0) ∧
      (∀ x ∈ rangesOf p ext, x.1 ≤ x.2) ∧ ((a.1.find p).isSome → (r.1.find p).isSome) := by
  have := foldRes_inv (P := fun r : NMap Nat × List MissingDataInfo × NMap Nat =>
      (∀ p, (subs.find p).isSome → (r.1.find p).isSome) ∧ ∃ ext, r.2.1 = a.2.1 ++ ext ∧
      Tiles ((a.1.find p).getD 0) (rangesOf p ext) ((r.1.find p).getD 0) ∧
      (∀ x ∈ rangesOf p ext, x.1 ≤ x.2) ∧ ((a.1.find p).isSome → (r.1.find p).isSome)) names ?_
    ⟨hk, [], by simp, .nil _, by simp, id⟩ h
  · exact this.2
  · rintro s n s' _ ⟨k1, ext, k2, k3, k4, k5⟩ hst
    obtain ⟨q, x, _, hx, _, ⟨c, _, hf, hc, h1, h2⟩ | ⟨_, h1, h2⟩⟩ := helloStep_ok k1 hst
    · rw [h1, h2]
      refine ⟨fun q' hq' => find_set_isSome (k1 q' hq'), ext ++ [⟨q, c + 1, x, 0⟩], by rw [k2, List.append_assoc], ?_, ?_,
        fun h => find_set_isSome (k5 h)⟩
      · rw [rangesOf_snoc, NMap.find_set]
        split
        · rename_i hq; subst hq
          rw [hf] at k3
          exact k3.snoc (Nat.le_of_lt hc)
        · rw [List.append_nil]; exact k3
      · intro y hy
        rw [rangesOf_snoc, List.mem_append] at hy
        rcases hy with hy | hy
        · exact k4 y hy
        · split at hy
          · simp only [List.mem_singleton] at hy; subst hy; exact hc
          · simp at hy
    · rw [h1, h2]
      exact ⟨k1, ext, k2, k3, k4, k5⟩

theorem onHelloData_tiles {cfg : CCfg} {p : Name} {bf0 : Bloom} {s s' : Cons} {buf : Bytes} {a1 a2 : List Call}
    (hi : CInv bf0 s) (hk : ∀ c ∈ a1 ++ a2, Keeps p s c) (h : onHelloData cfg s buf a1 a2 = .ok s') : TileRel p s s' := by
  unfold onHelloData at h
  simp only [Res.bind_eq_ok] at h
  obtain ⟨st, _, r, hr, s1, h1, h2⟩ := h
  obtain ⟨ext, e1, e2, e3, e4⟩ := hello_tiles p hi.sub hr
  simp only [List.nil_append] at e1
  subst e1
  have keep : ∀ (m : Cons) (cs : List Call), (∀ c ∈ cs, c ∈ a1 ++ a2) → ((s.getSeqNo p).isSome → (m.getSeqNo p).isSome) →
      ∀ c ∈ cs, Keeps p m c := by
    intro m cs hcs hm c hc
    obtain ⟨k1, k2⟩ := hk c (hcs c hc)
    exact ⟨k1, k2.imp_left hm⟩
  have key := fun hh => calls_quiet (p := p) hh h1
  obtain ⟨x1, l1, l2, l3⟩ := key (keep _ a1 (fun c hc => List.mem_append_left _ hc) e4)
  simp only [emit, getSeqNo] at l1 l2
  split at h2
  · rename_i hemp
    rw [List.isEmpty_iff] at hemp
    simp only [Res.ok.injEq] at h2
    subst h2
    refine ⟨[.hello r.2.2] ++ x1, by rw [l1, List.append_assoc], ?_, fun hks => ⟨?_, ?_⟩⟩
    · rw [notified_append, l3, seqOf, seqOf, getSeqNo, getSeqNo, l2]
      rw [hemp] at e2
      exact e2
    · rw [getSeqNo, l2]; exact e4 hks
    · rw [notified_append, l3]; simp [notified]
  · obtain ⟨x2, m1, m2, m3⟩ := calls_quiet (p := p) (keep _ a2 (fun c hc => List.mem_append_right _ hc) (by
      simp only [emit, getSeqNo, l2]; exact e4)) h2
    simp only [emit, getSeqNo] at m1 m2
    refine ⟨[.hello r.2.2] ++ x1 ++ [.update r.2.1] ++ x2, by rw [m1, l1]; simp only [List.append_assoc], ?_, fun hks => ⟨?_, ?_⟩⟩
    · rw [notified_append, notified_append, notified_append, l3, m3, seqOf, seqOf, getSeqNo, getSeqNo, m2, l2]
      simpa [notified] using e2
    · rw [getSeqNo, m2, l2]; exact e4 hks
    · intro y hy
      rw [notified_append, notified_append, notified_append, l3, m3] at hy
      apply e3 y
      simpa [notified] using hy

theorem onSyncData_tiles {cfg : CCfg} {p : Name} {s s' : Cons} {buf : Bytes} {a : List Call}
    (hk : ∀ c ∈ a, Keeps p s c) (h : onSyncData cfg s buf a = .ok s') : TileRel p s s' := by
  unfold onSyncData at h
  simp only [Res.bind_eq_ok] at h
  obtain ⟨st, _, r, hr, s1, h1, h2⟩ := h
  obtain ⟨ext, e1, e2, e3⟩ := sync_tiles p hr
  simp only [List.nil_append] at e1
  subst e1
  obtain ⟨_, cs, _, rfl⟩ := sendSyncInterest_ok h2
  split at h1
  · rename_i hemp
    rw [List.isEmpty_iff] at hemp
    simp only [Res.ok.injEq] at h1
    subst h1
    refine ⟨[_], rfl, ?_, fun hks => ⟨(e3 hks).1, by simp [notified]⟩⟩
    rw [hemp] at e2
    exact e2
  · obtain ⟨x1, l1, l2, l3⟩ := calls_quiet (p := p) (fun c hc => by
      obtain ⟨k1, k2⟩ := hk c hc
      exact ⟨k1, k2.imp_left (fun hks => (e3 hks).1)⟩) h1
    simp only [emit, getSeqNo] at l1 l2
    refine ⟨[.update r.2] ++ x1 ++ [_], by simp only [l1, List.append_assoc]; rfl, ?_, fun hks => ⟨?_, ?_⟩⟩
    · rw [notified_append, notified_append, l3, seqOf, seqOf, getSeqNo, getSeqNo]
      show Tiles _ _ ((s1.prefixes.find p).getD 0)
      rw [l2]
      simpa [notified] using e2
    · show (s1.prefixes.find p).isSome
      rw [l2]; exact (e3 hks).1
    · intro y hy
      rw [notified_append, notified_append, l3] at hy
      apply (e3 hks).2 y
      simpa [notified] using hy

theorem step_tiles {cfg : CCfg} {p : Name} {bf0 : Bloom} {s s' : Cons} {op : Op} (hi : CInv bf0 s)
    (hk : ∀ c ∈ callsIn op, Keeps p s c) (h : step cfg s op = .ok s') : TileRel p s s' := by
  have q : ∀ {s' : Cons}, s'.log = s.log → s'.prefixes = s.prefixes → TileRel p s s' :=
    fun h1 h2 => .quiet (ext := []) (by simpa using h1) (by rw [getSeqNo, getSeqNo, h2]) rfl
  have q1 : ∀ {s' : Cons} {n : Name} {lt : Nat}, s'.log = s.log ++ [.interest n lt] → s'.prefixes = s.prefixes → TileRel p s s' :=
    fun h1 h2 => .quiet h1 (by rw [getSeqNo, getSeqNo, h2]) rfl
  cases op with
  | call c =>
    obtain ⟨e, h1, h2, h3⟩ := call_quiet (hk c (by simp [callsIn])) h
    exact .quiet h1 h2 h3
  | helloSegment d =>
    simp only [step] at h
    split at h <;> simp only [Res.ok.injEq] at h <;> subst h
    · split <;> exact q rfl rfl
    · exact q rfl rfl
  | helloComplete buf a1 a2 =>
    simp only [step] at h
    split at h
    · exact (q (s' := { s with helloFetcher := some false }) rfl rfl).trans
        (onHelloData_tiles ⟨hi.psorted, hi.ssorted, hi.sub, hi.lt, hi.bloom⟩ (fun c hc => hk c hc) h)
    · simp only [Res.ok.injEq] at h; subst h; exact q rfl rfl
  | helloError =>
    simp only [step] at h
    split at h <;> simp only [Res.ok.injEq] at h <;> subst h <;> exact q rfl rfl
  | syncSegment d =>
    simp only [step] at h
    split at h
    · split at h <;> simp only [Res.ok.injEq] at h <;> subst h <;> split
      · exact q1 rfl rfl
      · exact q rfl rfl
      · exact q1 rfl rfl
      · exact q rfl rfl
    · simp only [Res.ok.injEq] at h; subst h; exact q rfl rfl
  | syncComplete buf acts =>
    simp only [step] at h
    split at h
    · split at h
      · simp only [Res.ok.injEq] at h; subst h; exact q rfl rfl
      · exact (q (s' := { s with syncFetcher := some false }) rfl rfl).trans
          (onSyncData_tiles (fun c hc => hk c hc) h)
    · simp only [Res.ok.injEq] at h; subst h; exact q rfl rfl
  | syncError t =>
    simp only [step] at h
    split at h
    · split at h
      · obtain ⟨_, cs, _, rfl⟩ := sendSyncInterest_ok h
        exact q1 rfl rfl
      · simp only [Res.ok.injEq] at h; subst h; exact q rfl rfl
    · simp only [Res.ok.injEq] at h; subst h; exact q rfl rfl
  | tick t =>
    simp only [step, Res.ok.injEq] at h
    subst h
    split <;> exact q rfl rfl
  | fire =>
    simp only [step] at h
    split at h
    · simp only [Res.ok.injEq] at h; subst h; exact q rfl rfl
    · simp only [Res.ok.injEq] at h; subst h; exact q1 rfl rfl
    · obtain ⟨_, cs, _, rfl⟩ := sendSyncInterest_ok h
      exact q1 rfl rfl

theorem run_tiles {cfg : CCfg} {p : Name} {bf0 : Bloom} {ops : List Op} : ∀ {s s' : Cons}, CInv bf0 s →
    (∀ op ∈ ops, ∀ c ∈ callsIn op, Keeps p s c) → run cfg s ops = .ok s' → TileRel p s s' := by
  induction ops with
  | nil =>
    intro s s' _ _ h
    simp only [run, foldRes, Res.ok.injEq] at h
    subst h
    exact .refl p s
  | cons op ops ih =>
    intro s s' hi hk h
    simp only [run, foldRes, Res.bind_eq_ok] at h
    obtain ⟨s1, h1, h2⟩ := h
    have ht := step_tiles hi (hk op List.mem_cons_self) h1
    refine ht.trans (ih ((step_micros h1).inv hi) (fun o ho c hc => ?_) h2)
    obtain ⟨k1, k2⟩ := hk o (List.mem_cons_of_mem _ ho) c hc
    obtain ⟨_, _, _, t3⟩ := ht
    exact ⟨k1, k2.imp_left (fun hks => (t3 hks).1)⟩

end Cons

/-- C46: during any sequence of events in which `p` is not unsubscribed, for a consumer that has a number
for `p` (so for every subscribed `p`): the ranges passed to the update callback for `p` are nonempty and
follow each other without gap or overlap from the number at the beginning to the number at the end, which is
therefore not smaller. -/
theorem c46_ranges (cfg : CCfg) (s s' : Cons) (hs : Cons.Reach cfg s) (p : Name) (x : Nat)
    (hp : s.getSeqNo p = some x) (ops : List Cons.Op)
    (hno : ∀ op ∈ ops, Cons.Call.removeSubscription p ∉ callsIn op) (h : Cons.run cfg s ops = .ok s') :
    ∃ ext y, s'.log = s.log ++ ext ∧ s'.getSeqNo p = some y ∧ x ≤ y ∧ Tiles x (notified p ext) y ∧
      ∀ r ∈ notified p ext, r.1 ≤ r.2 := by
  obtain ⟨bf0, _, hi⟩ := hs.moment.inv
  obtain ⟨ext, h1, h2, h3⟩ := Cons.run_tiles (p := p) hi (fun op hop c hc =>
    ⟨fun e => hno op hop (e ▸ hc), Or.inl (by rw [hp]; rfl)⟩) h
  obtain ⟨k1, k2⟩ := h3 (by rw [hp]; rfl)
  obtain ⟨y, hy⟩ := Option.isSome_iff_exists.mp k1
  rw [Cons.seqOf, Cons.seqOf, hp, hy] at h2
  exact ⟨ext, y, h1, hy, h2.le, h2, k2⟩

/-- C46 for prefixes the consumer has no number for (the number counts as zero): the same without the
nonemptiness, as long as `p` is neither subscribed nor unsubscribed in between. -/
theorem c46_ranges_new (cfg : CCfg) (s s' : Cons) (hs : Cons.Reach cfg s) (p : Name) (ops : List Cons.Op)
    (hno : ∀ op ∈ ops, ∀ c ∈ callsIn op, c ≠ .removeSubscription p ∧ ∀ seq cb, c ≠ .addSubscription p seq cb)
    (h : Cons.run cfg s ops = .ok s') :
    ∃ ext, s'.log = s.log ++ ext ∧ Tiles ((s.getSeqNo p).getD 0) (notified p ext) ((s'.getSeqNo p).getD 0) := by
  obtain ⟨bf0, _, hi⟩ := hs.moment.inv
  obtain ⟨ext, h1, h2, _⟩ := Cons.run_tiles (p := p) hi (fun op hop c hc =>
    ⟨(hno op hop c hc).1, Or.inr (hno op hop c hc).2⟩) h
  exact ⟨ext, h1, h2⟩

namespace Cons

theorem sync_best {names : List Name} (p : Name) : ∀ {a r : NMap Nat × List MissingDataInfo},
    foldRes syncStep a names = .ok r → r.1.find p = best p (a.1.find p) (names.filterMap announced) := by
  induction names with
  | nil =>
    intro a r h
    simp only [foldRes, Res.ok.injEq] at h
    subst h
    rfl
  | cons n names ih =>
    intro a r h
    simp only [foldRes, Res.bind_eq_ok] at h
    obtain ⟨b, h1, h2⟩ := h
    rw [ih h2]
    obtain ⟨q, x, ha, hx, hc⟩ := syncStep_ok h1
    rw [List.filterMap_cons_some ha]
    unfold best
    rw [List.foldl_cons]
    congr 1
    rcases hc with ⟨hf, rfl⟩ | ⟨c, hf, hc, rfl⟩ | ⟨c, hf, hc, rfl⟩
    · rw [NMap.find_set]
      split
      · rename_i hq; subst hq; rw [hf]; simp
      · rfl
    · rw [NMap.find_set]
      split
      · rename_i hq; subst hq; rw [hf]; simp; omega
      · rfl
    · split
      · rename_i hq; simp only at hq; subst hq; rw [hf]; simp; omega
      · rfl

theorem hello_best {subs : NMap Unit} {names : List Name} (p : Name) :
    ∀ {a r : NMap Nat × List MissingDataInfo × NMap Nat}, (∀ p, (subs.find p).isSome → (a.1.find p).isSome) →
    foldRes (helloStep subs) a names = .ok r →
    (r.1.find p = if (subs.find p).isSome then best p (a.1.find p) (names.filterMap announced) else a.1.find p) ∧
    r.2.2.find p = (a.2.2.find p).or (((names.filterMap announced).find? (fun e => e.1 = p)).map Prod.snd) := by
  induction names with
  | nil =>
    intro a r _ h
    simp only [foldRes, Res.ok.injEq] at h
    subst h
    exact ⟨by simp [best], by simp⟩
  | cons n names ih =>
    intro a r hk h
    simp only [foldRes, Res.bind_eq_ok] at h
    obtain ⟨b, h1, h2⟩ := h
    obtain ⟨q, x, ha, hx, hav, hc⟩ := helloStep_ok hk h1
    have hkb : ∀ p, (subs.find p).isSome → (b.1.find p).isSome := by
      intro p hp
      rcases hc with ⟨c, _, _, _, h, _⟩ | ⟨_, h, _⟩
      · rw [h]; exact find_set_isSome (hk p hp)
      · rw [h]; exact hk p hp
    obtain ⟨i1, i2⟩ := ih hkb h2
    rw [List.filterMap_cons_some ha]
    constructor
    · rw [i1]
      split
      · rename_i hsub
        unfold best
        rw [List.foldl_cons]
        congr 1
        rcases hc with ⟨c, _, hf, hc, h, _⟩ | ⟨h0, h, _⟩
        · rw [h, NMap.find_set]
          split
          · rename_i hq; subst hq; rw [hf]; simp; omega
          · rfl
        · rw [h]
          split
          · rename_i hq; simp only at hq; subst hq
            obtain ⟨c, hf, hc⟩ := h0 hsub
            rw [hf]; simp; omega
          · rfl
      · rename_i hsub
        rcases hc with ⟨c, hs, hf, hc, h, _⟩ | ⟨h0, h, _⟩
        · rw [h, NMap.find_set, if_neg]
          rintro rfl
          exact hsub hs
        · rw [h]
    · rw [i2, hav, NMap.find_emplace, List.find?_cons]
      by_cases hq : q = p
      · subst hq
        cases a.2.2.find q <;> simp
      · rw [if_neg hq]; simp [hq]

end Cons

/-- C46, the new numbers: after a sync content has been processed, the number of every prefix is the largest
of the old one and the ones announced for it.  `acts` are the calls the application makes in the update
callback. -/
theorem c46_sync_merge (cfg : CCfg) (s s' : Cons) (buf : Bytes) (acts : List Cons.Call)
    (hf : s.syncFetcher = some true) (hb : s.contentType = .blob) (p : Name)
    (hno : ∀ c ∈ acts, c ≠ .removeSubscription p ∧ ∀ seq cb, c ≠ .addSubscription p seq cb)
    (h : Cons.step cfg s (.syncComplete buf acts) = .ok s') :
    s'.getSeqNo p = best p (s.getSeqNo p) (announcements buf) := by
  simp only [Cons.step, hf, if_true] at h
  rw [if_neg (by rw [hb]; decide)] at h
  unfold Cons.onSyncData at h
  simp only [Res.bind_eq_ok] at h
  obtain ⟨st, hst, r, hr, s1, h1, h2⟩ := h
  obtain ⟨_, cs, _, rfl⟩ := Cons.sendSyncInterest_ok h2
  have hbest := Cons.sync_best p hr
  have hann : announcements buf = st.content.filterMap announced := by
    unfold announcements contentNames; rw [hst]
  rw [hann]
  show s1.prefixes.find p = _
  split at h1
  · simp only [Res.ok.injEq] at h1
    subst h1
    exact hbest
  · obtain ⟨_, _, l2, _⟩ := Cons.calls_quiet (p := p) (fun c hc => ⟨(hno c hc).1, Or.inr (hno c hc).2⟩) h1
    exact l2.trans hbest

/-- C46 for hello contents: first the hello callback gets, for each announced prefix, the first number
announced for it; the numbers of the subscribed prefixes become the largest of the old and the announced ones,
the others stay. -/
theorem c46_hello_merge (cfg : CCfg) (s s' : Cons) (hs : Cons.Reach cfg s) (buf : Bytes) (a1 a2 : List Cons.Call)
    (hf : s.helloFetcher = some true) (h : Cons.step cfg s (.helloComplete buf a1 a2) = .ok s') :
    (∃ m ext, s'.log = s.log ++ .hello m :: ext ∧
      ∀ p, m.find p = ((announcements buf).find? (fun e => e.1 = p)).map Prod.snd) ∧
    ∀ p, (∀ c ∈ a1 ++ a2, c ≠ .removeSubscription p ∧ ∀ seq cb, c ≠ .addSubscription p seq cb) →
      s'.getSeqNo p = if s.isSubscribed p then best p (s.getSeqNo p) (announcements buf) else s.getSeqNo p := by
  obtain ⟨bf0, _, hi⟩ := hs.moment.inv
  simp only [Cons.step, hf, if_true] at h
  unfold Cons.onHelloData at h
  simp only [Res.bind_eq_ok] at h
  obtain ⟨st, hst, r, hr, s1, h1, h2⟩ := h
  have hann : announcements buf = st.content.filterMap announced := by
    unfold announcements contentNames; rw [hst]
  rw [hann]
  constructor
  · obtain ⟨e1, he1⟩ := (Cons.calls_micros (C := fun _ => True) (fun _ _ => trivial) h1).log
    have : ∃ e2, s'.log = s1.log ++ e2 := by
      split at h2
      · simp only [Res.ok.injEq] at h2; exact ⟨[], by rw [h2]; simp⟩
      · obtain ⟨e2, he2⟩ := (Cons.calls_micros (C := fun _ => True) (fun _ _ => trivial) h2).log
        exact ⟨.update r.2.1 :: e2, by rw [he2]; simp [Cons.emit]⟩
    obtain ⟨e2, he2⟩ := this
    refine ⟨r.2.2, e1 ++ e2, by rw [he2, he1]; simp [Cons.emit], fun p => ?_⟩
    have := (Cons.hello_best p hi.sub hr).2
    simpa using this
  · intro p hno
    have hbest := (Cons.hello_best p hi.sub hr).1
    have k1 := fun hh => Cons.calls_quiet (p := p) hh h1
    obtain ⟨_, _, l2, _⟩ := k1 (fun c hc => ⟨(hno c (List.mem_append_left _ hc)).1, Or.inr (hno c (List.mem_append_left _ hc)).2⟩)
    have e : s1.getSeqNo p = if s.isSubscribed p then best p (s.getSeqNo p) (st.content.filterMap announced) else s.getSeqNo p :=
      l2.trans hbest
    split at h2
    · simp only [Res.ok.injEq] at h2; subst h2; exact e
    · obtain ⟨_, _, m2, _⟩ := Cons.calls_quiet (p := p) (fun c hc =>
        ⟨(hno c (List.mem_append_right _ hc)).1, Or.inr (hno c (List.mem_append_right _ hc)).2⟩) h2
      exact m2.trans e

/-! ### C47 -/

theorem Cons.Moment.filter {cfg : CCfg} {s : Cons} (h : Cons.Moment cfg s) {bf0 : Bloom} (hb : freshFilter cfg = .ok bf0)
    (hz : SizedBf bf0) : SizedBf s.bloom ∧ (∀ l, Lists l s → foldRes Bloom.insert bf0 l = .ok s.bloom) := by
  obtain ⟨bf1, h1, hi⟩ := h.inv
  unfold freshFilter at hb
  rw [hb] at h1
  cases h1
  obtain ⟨ops, k1, k2⟩ := hi.bloom
  constructor
  · obtain ⟨b, j1, j2, _⟩ := runBf_of ops bf0 [] hz (by simp)
    rw [k1] at j1
    cases j1
    exact j2
  · intro l hl
    rw [← runBf_ins, ← k1]
    apply c15_set_only bf0 hz
    · unfold Bloom.new at hb
      simp only [Res.bind_eq_ok, Res.ok.injEq] at hb
      obtain ⟨kt, _, rfl⟩ := hb
      simp
    · intro n
      rw [mem_live_ins, k2]
      simp only [List.not_mem_nil, false_or]
      exact hl n

theorem foldRes_insert_of (ns : List Name) : ∀ bf : Bloom, SizedBf bf → ∃ bf', foldRes Bloom.insert bf ns = .ok bf' := by
  intro bf hz
  obtain ⟨b, h, _⟩ := runBf_of (ns.map .ins) bf [] hz (by simp)
  exact ⟨b, by rw [← runBf_ins]; exact h⟩

/-- The full claim of C47 about addSubscription. -/
def Spec.AddExact : Prop :=
  ∀ (cfg : CCfg) (s s' : Cons), Cons.Reach cfg s → ∀ (p : Name) (seq : Nat) (cb r : Bool),
    s.addSubscription p seq cb = .ok (r, s') → (r = true ↔ s.isSubscribed p = false)

/-- C47, what holds for addSubscription at every moment, also inside callbacks: it returns, succeeds exactly
if the consumer has no number for `p`, hence fails if `p` is subscribed; afterwards exactly the old
subscriptions and, on success, `p` are subscribed, `p` with the given number.  Missing: it also fails for a
prefix that is not subscribed but has a number (see `c47_false`). -/
theorem c47_add_partial (cfg : CCfg) (bf0 : Bloom) (hb : freshFilter cfg = .ok bf0) (hz : SizedBf bf0) (s : Cons)
    (hs : Cons.Moment cfg s) (p : Name) (seq : Nat) (cb : Bool) :
    ∃ r s', s.addSubscription p seq cb = .ok (r, s') ∧ (r = true ↔ s.getSeqNo p = none) ∧
      (s.isSubscribed p = true → r = false) ∧
      (∀ q, s'.isSubscribed q = (s.isSubscribed q || (r && decide (q = p)))) ∧
      (∀ q, s'.getSeqNo q = if r && decide (q = p) then some (seq % 2 ^ 64) else s.getSeqNo q) := by
  obtain ⟨bf1, _, hi⟩ := hs.inv
  have hsz := (hs.filter hb hz).1
  have hok : ∃ r s', s.addSubscription p seq cb = .ok (r, s') := by
    unfold Cons.addSubscription
    split
    · exact ⟨_, _, rfl⟩
    · obtain ⟨bits, h1, _⟩ := insert_of hsz p
      rw [h1]
      exact ⟨_, _, rfl⟩
  obtain ⟨r, s', h⟩ := hok
  refine ⟨r, s', h, ?_⟩
  rcases Cons.addSubscription_ok h with ⟨h1, rfl, rfl⟩ | ⟨h1, rfl, bf, _, h3, h4, _, _, _⟩
  · refine ⟨?_, fun _ => rfl, by simp, by simp⟩
    rw [Cons.getSeqNo]
    obtain ⟨x, hx⟩ := Option.isSome_iff_exists.mp h1
    simp [hx]
  · refine ⟨by simpa [Cons.getSeqNo] using h1, ?_, ?_, ?_⟩
    · intro hsub
      have := hi.sub p hsub
      rw [h1] at this
      simp at this
    · intro q
      simp only [Cons.isSubscribed, h4, NMap.find_set, Bool.true_and]
      by_cases hq : q = p
      · subst hq; simp
      · rw [if_neg (fun e => hq e.symm)]; simp [hq]
    · intro q
      simp only [Cons.getSeqNo, h3, NMap.find_set, Bool.true_and, decide_eq_true_eq]
      by_cases hq : q = p
      · subst hq; simp [U64]
      · rw [if_neg (fun e => hq e.symm), if_neg hq]

/-- C47: removeSubscription returns, succeeds exactly if `p` is subscribed, and ends exactly that
subscription. -/
theorem c47_remove (cfg : CCfg) (bf0 : Bloom) (hb : freshFilter cfg = .ok bf0) (hz : SizedBf bf0) (s : Cons)
    (hs : Cons.Moment cfg s) (p : Name) :
    ∃ r s', s.removeSubscription p = .ok (r, s') ∧ r = s.isSubscribed p ∧
      (∀ q, s'.isSubscribed q = (s.isSubscribed q && decide (q ≠ p))) ∧
      (∀ q, s'.getSeqNo q = if r && decide (q = p) then none else s.getSeqNo q) ∧ s'.log = s.log := by
  have hsz := (hs.filter hb hz).1
  have hok : ∃ r s', s.removeSubscription p = .ok (r, s') := by
    unfold Cons.removeSubscription
    split
    · exact ⟨_, _, rfl⟩
    · obtain ⟨bf, h1⟩ := foldRes_insert_of (s.subs.erase p).keys s.bloom.clear
        ⟨hsz.1, by simpa [Bloom.clear] using hsz.2⟩
      simp only [h1]
      exact ⟨_, _, rfl⟩
  obtain ⟨r, s', h⟩ := hok
  refine ⟨r, s', h, ?_⟩
  rcases Cons.removeSubscription_ok h with ⟨h1, rfl, rfl⟩ | ⟨h1, rfl, bf, _, rfl⟩
  · refine ⟨by simp [Cons.isSubscribed, h1], fun q => ?_, by simp, rfl⟩
    by_cases hq : q = p
    · subst hq; simp [Cons.isSubscribed, h1]
    · simp [hq]
  · refine ⟨by simp [Cons.isSubscribed, h1], fun q => ?_, fun q => ?_, rfl⟩
    · simp only [Cons.isSubscribed, NMap.find_erase]
      by_cases hq : q = p
      · subst hq; simp
      · rw [if_neg (fun e => hq e.symm)]; simp [hq]
    · simp only [Cons.getSeqNo, NMap.find_erase, Bool.true_and, decide_eq_true_eq]
      by_cases hq : q = p
      · subst hq; simp
      · rw [if_neg (fun e => hq e.symm), if_neg hq]

theorem CMicros.subscribed {cfg : CCfg} {C : Cons.Call → Prop} {s s' : Cons} {p : Name} (h : CMicros cfg C s s')
    (hC : ∀ c, C c → c ≠ .removeSubscription p ∧ ∀ seq cb, c ≠ .addSubscription p seq cb) :
    s'.isSubscribed p = s.isSubscribed p := by
  induction h with
  | refl => rfl
  | @tail a b _ hab ih =>
    rw [← ih]
    cases hab with
    | call c hc h =>
      obtain ⟨n1, n2⟩ := hC c hc
      cases c with
      | addSubscription q seq cb =>
        simp only [Cons.call, Res.bind_eq_ok, Res.ok.injEq] at h
        obtain ⟨⟨r, s1⟩, h1, rfl⟩ := h
        rcases Cons.addSubscription_ok h1 with ⟨_, _, rfl⟩ | ⟨hx, _, bf, hbf, hp, hsub, hb, _, hl⟩
        · rfl
        · simp only [Cons.isSubscribed, hsub, NMap.find_set]
          rw [if_neg]
          rintro rfl
          exact n2 seq cb rfl
      | removeSubscription q =>
        simp only [Cons.call, Res.bind_eq_ok, Res.ok.injEq] at h
        obtain ⟨⟨r, s1⟩, h1, rfl⟩ := h
        rcases Cons.removeSubscription_ok h1 with ⟨_, _, rfl⟩ | ⟨hx, _, bf, hbf, rfl⟩
        · rfl
        · simp only [Cons.isSubscribed, NMap.find_erase]
          rw [if_neg]
          rintro rfl
          exact n1 rfl
      | sendHello => simp only [Cons.call, Res.ok.injEq] at h; subst h; rfl
      | sendSync =>
        obtain ⟨_, cs, _, rfl⟩ := Cons.sendSyncInterest_ok (show a.sendSyncInterest cfg = .ok b from h)
        rfl
      | stop => simp only [Cons.call, Res.ok.injEq] at h; subst h; rfl
    | helloData names r ib h => rfl
    | syncData names r ib h => rfl
    | notify us => rfl
    | hello m => rfl
    | internal h1 h2 h3 h4 h5 => rw [Cons.isSubscribed, Cons.isSubscribed, h3]

/-- C47: nothing but successful addSubscription(p) and removeSubscription(p) calls changes whether `p` is
subscribed: no received Data, timer, error or other call does. -/
theorem c47_reflects (cfg : CCfg) (s s' : Cons) (ops : List Cons.Op) (p : Name)
    (hno : ∀ op ∈ ops, ∀ c ∈ callsIn op, c ≠ .removeSubscription p ∧ ∀ seq cb, c ≠ .addSubscription p seq cb)
    (h : Cons.run cfg s ops = .ok s') : s'.isSubscribed p = s.isSubscribed p :=
  (Cons.run_micros (C := fun c => c ≠ .removeSubscription p ∧ ∀ seq cb, c ≠ .addSubscription p seq cb)
    (fun op hop c hc => by
      rcases hc with hc | rfl | rfl
      · exact hno op hop c hc
      · exact ⟨by simp, by simp⟩
      · exact ⟨by simp, by simp⟩) h).subscribed (fun _ h => h)

/-- A default consumer: 6 expected subscriptions, probability 0.001. -/
def sampleCCfg : CCfg where
  syncPrefix := nameOf [115]
  bfCount := 6
  bfFpp := 0x3F50624DD2F1A9FC#64
  helloLifetime := 1000
  syncLifetime := 1000
  jitter := fun n => 100 + n
  libm := sampleLibm
  extraSalt := fun _ => 0#32

/-- One-packet Data under the given name (hello or sync prefix), with an IBF, a version and a segment number. -/
def ibfData (key : Name) (ct : ContentType) (content : Bytes) : Data :=
  ⟨key ++ [⟨8, List.replicate 72 0⟩, ⟨54, [1]⟩, ⟨50, [0]⟩], ct, content, 1000, some ⟨50, [0]⟩⟩

/-- A consumer that subscribes to /a, gets a hello reply, and sends a sync Interest. -/
def subscribed : List Cons.Op :=
  [.call (.addSubscription pA 0 false), .call .sendHello,
   .helloSegment (ibfData (nameOf [115] ++ [HELLO]) .blob []), .helloComplete (encodeNames [pA.appendNumber 0]) [] [],
   .call .sendSync]

/-- The state after the given events. -/
def consRun (ops : List Cons.Op) : Res Cons := Res.bind (Cons.init sampleCCfg) fun s => Cons.run sampleCCfg s ops

theorem consRun_reach {ops : List Cons.Op} {s : Cons} (h : consRun ops = .ok s) : Cons.Reach sampleCCfg s := by
  unfold consRun at h
  rw [Res.bind_eq_ok] at h
  obtain ⟨s0, h0, h1⟩ := h
  exact ⟨s0, ops, h0, h1⟩

set_option synthInstance.maxSize 1024 in
/-- Non-vacuity for C46: sync Data with /a/3, a hello with /a/5 and an older sync Data with /a/4 are reported
as 1–3 and 4–5. -/
example : ((consRun (subscribed ++
      [.syncSegment (ibfData (nameOf [115]) .blob []), .syncComplete (encodeNames [pA.appendNumber 3]) [],
       .call .sendHello, .helloSegment (ibfData (nameOf [115] ++ [HELLO]) .blob []),
       .helloComplete (encodeNames [pA.appendNumber 5, pB.appendNumber 7]) [] [],
       .syncSegment (ibfData (nameOf [115]) .blob []), .syncComplete (encodeNames [pA.appendNumber 4]) []])).get?.map
      fun s => (s.getSeqNo pA, notified pA s.log, s.getSeqNo pB, s.log.filterMap (fun o => match o with
        | .hello m => some m
        | _ => none)))
    = some (some 5, [(1, 3), (4, 5)], none, [[(pA, 0)], [(pA, 5), (pB, 7)]]) := by decide +kernel

/-- C47 is false as stated: sync Data that arrives after /a was unsubscribed gives the consumer a number for
/a again, and then /a cannot be subscribed any more. -/
theorem c47_false : ¬ Spec.AddExact := by
  intro h
  have key : ∃ s, consRun (subscribed ++ [.call (.removeSubscription pA),
        .syncSegment (ibfData (nameOf [115]) .blob []), .syncComplete (encodeNames [pA.appendNumber 1]) []]) = .ok s ∧
      (s.isSubscribed pA, s.getSeqNo pA) = (false, some 1) := Res.of_get? (by decide +kernel)
  obtain ⟨s, h1, h2⟩ := key
  simp only [Prod.mk.injEq] at h2
  have h3 : s.addSubscription pA 0 false = .ok (false, s) := by
    unfold Cons.addSubscription
    rw [show s.prefixes.find pA = some 1 from h2.2]
  have := (h sampleCCfg s s (consRun_reach h1) pA 0 false false h3).mpr h2.1
  cases this

/-- Non-vacuity for C47: the sample filter is well sized; subscribing twice fails the second time, also from
inside a callback. -/
theorem sample_fresh : freshFilter sampleCCfg = .ok sampleBf ∧ SizedBf sampleBf :=
  ⟨sample_new _, by decide, by decide⟩

set_option synthInstance.maxSize 1024 in
example : ((consRun subscribed).get?.bind fun s =>
      (s.addSubscription pA 4 true).get?.bind fun r => (s.addSubscription pB 4 true).get?.bind fun r' =>
      (r'.2.removeSubscription pA).get?.map fun r'' => (r.1, r'.1, r''.1, r''.2.isSubscribed pA, r''.2.isSubscribed pB,
        r''.2.getSeqNo pB))
    = some (false, true, true, false, true, some 4) := by decide +kernel

/-! ### C48 -/

/-- The full claim C48 (for events in which the application makes no calls, so that the subscriptions are the
same before and after): an update callback only concerns subscribed prefixes. -/
def Spec.OnlySubscribed : Prop :=
  ∀ (cfg : CCfg) (s s' : Cons), Cons.Reach cfg s → ∀ op, callsIn op = [] → Cons.step cfg s op = .ok s' →
    ∀ ext us u, s'.log = s.log ++ ext → Out.update us ∈ ext → u ∈ us → s.isSubscribed u.pfx = true

/-- C48 is false as stated: sync Data that was on its way when /a was unsubscribed is still reported. -/
theorem c48_false : ¬ Spec.OnlySubscribed := by
  intro h
  have key : ∃ s, consRun (subscribed ++ [.call (.removeSubscription pA),
        .syncSegment (ibfData (nameOf [115]) .blob [])]) = .ok s ∧
      (s.isSubscribed pA, ((Cons.step sampleCCfg s (.syncComplete (encodeNames [pA.appendNumber 1]) [])).get?.map
        fun s' => (decide (s'.log.take s.log.length = s.log), (s'.log.drop s.log.length).head?)))
        = (false, some (true, some (.update [⟨pA, 1, 1, 0⟩]))) := Res.of_get? (by decide +kernel)
  obtain ⟨s, h1, h2⟩ := key
  simp only [Prod.mk.injEq] at h2
  obtain ⟨h2, h3⟩ := h2
  obtain ⟨s', h4, h5⟩ := Res.of_get? h3
  simp only [Prod.mk.injEq, decide_eq_true_eq] at h5
  obtain ⟨h5, h6⟩ := h5
  have hl : s'.log = s.log ++ s'.log.drop s.log.length := by
    conv_lhs => rw [← List.take_append_drop s.log.length s'.log, h5]
  have := h sampleCCfg s s' (consRun_reach h1) _ rfl h4 _ _ _ hl (List.mem_of_mem_head? h6) (List.mem_singleton.mpr rfl)
  rw [h2] at this
  cases this

/-- A second way in which C48 fails: the updates of a hello reply are reported after the hello callback, even
if the application unsubscribed in that callback. -/
theorem c48_false_hello : ∃ s s', Cons.Reach sampleCCfg s ∧
    Cons.step sampleCCfg s (.helloComplete (encodeNames [pA.appendNumber 2]) [.removeSubscription pA] []) = .ok s' ∧
    s'.log = s.log ++ [.hello [(pA, 2)], .update [⟨pA, 1, 2, 0⟩]] ∧ s'.isSubscribed pA = false := by
  have key : ∃ s, consRun [.call (.addSubscription pA 0 false), .call .sendHello,
        .helloSegment (ibfData (nameOf [115] ++ [HELLO]) .blob [])] = .ok s ∧
      ((Cons.step sampleCCfg s (.helloComplete (encodeNames [pA.appendNumber 2]) [.removeSubscription pA] [])).get?.map
        fun s' => (decide (s'.log = s.log ++ [.hello [(pA, 2)], .update [⟨pA, 1, 2, 0⟩]]), s'.isSubscribed pA))
        = some (true, false) := Res.of_get? (by decide +kernel)
  obtain ⟨s, h1, h2⟩ := key
  obtain ⟨s', h3, h4⟩ := Res.of_get? h2
  simp only [Prod.mk.injEq, decide_eq_true_eq] at h4
  exact ⟨s, s', consRun_reach h1, h3, h4.1, h4.2⟩

namespace Cons

theorem call_updates {cfg : CCfg} {s s' : Cons} {c : Call} (h : call cfg s c = .ok s') :
    ∃ ext, s'.log = s.log ++ ext ∧ ∀ us, Out.update us ∈ ext → ∀ u ∈ us, ∃ seq, c = .addSubscription u.pfx seq true := by
  cases c with
  | addSubscription q seq cb =>
    simp only [Cons.call, Res.bind_eq_ok, Res.ok.injEq] at h
    obtain ⟨⟨r, s1⟩, h1, rfl⟩ := h
    rcases addSubscription_ok h1 with ⟨_, _, rfl⟩ | ⟨hx, _, bf, hbf, hp, hsub, hb, _, hl⟩
    · exact ⟨[], by simp, by simp⟩
    · refine ⟨_, hl, ?_⟩
      split
      · rename_i hcb
        simp only [Bool.and_eq_true] at hcb
        intro us hus u hu
        simp only [List.mem_singleton, Out.update.injEq] at hus
        subst hus
        simp only [List.mem_singleton] at hu
        subst hu
        exact ⟨seq, by rw [hcb.1]⟩
      · simp
  | removeSubscription q =>
    simp only [Cons.call, Res.bind_eq_ok, Res.ok.injEq] at h
    obtain ⟨⟨r, s1⟩, h1, rfl⟩ := h
    rcases removeSubscription_ok h1 with ⟨_, _, rfl⟩ | ⟨hx, _, bf, hbf, rfl⟩ <;> exact ⟨[], by simp, by simp⟩
  | sendHello =>
    simp only [Cons.call, Res.ok.injEq] at h
    subst h
    exact ⟨[_], rfl, by simp⟩
  | sendSync =>
    obtain ⟨_, cs, _, rfl⟩ := sendSyncInterest_ok (show s.sendSyncInterest cfg = .ok s' from h)
    exact ⟨[_], rfl, by simp⟩
  | stop =>
    simp only [Cons.call, Res.ok.injEq] at h
    subst h
    exact ⟨[], by simp [stop], by simp⟩

theorem calls_updates {cfg : CCfg} {cs : List Call} {s s' : Cons} (h : foldRes (call cfg) s cs = .ok s') :
    ∃ ext, s'.log = s.log ++ ext ∧ ∀ us, Out.update us ∈ ext → ∀ u ∈ us, ∃ seq, .addSubscription u.pfx seq true ∈ cs := by
  refine foldRes_rel (Q := fun s s' : Cons => ∃ ext, s'.log = s.log ++ ext ∧ ∀ us, Out.update us ∈ ext → ∀ u ∈ us, ∃ seq,
    Call.addSubscription u.pfx seq true ∈ cs) (fun _ => ⟨[], by simp, by simp⟩) ?_ cs ?_ h
  · rintro a b c ⟨e, h1, h2⟩ ⟨e', h1', h2'⟩
    refine ⟨e ++ e', by rw [h1', h1, List.append_assoc], fun us hus => ?_⟩
    rcases List.mem_append.mp hus with hus | hus
    · exact h2 us hus
    · exact h2' us hus
  · intro a c b hc hab
    obtain ⟨e, h1, h2⟩ := call_updates hab
    refine ⟨e, h1, fun us hus u hu => ?_⟩
    obtain ⟨seq, h3⟩ := h2 us hus u hu
    exact ⟨seq, h3 ▸ hc⟩

theorem sync_origin {names : List Name} {a r : NMap Nat × List MissingDataInfo} (h : foldRes syncStep a names = .ok r) :
    ∀ u ∈ r.2, u ∈ a.2 ∨ ∃ n ∈ names, announced n = some (u.pfx, u.highSeq) := by
  refine foldRes_inv (P := fun r : NMap Nat × List MissingDataInfo => ∀ u ∈ r.2, u ∈ a.2 ∨ ∃ n ∈ names,
    announced n = some (u.pfx, u.highSeq)) names ?_ (fun u hu => Or.inl hu) h
  intro b n b' hn hb hst u hu
  obtain ⟨q, x, ha, _, ⟨_, h⟩ | ⟨c, _, _, h⟩ | ⟨c, _, _, h⟩⟩ := syncStep_ok hst
  all_goals rw [h] at hu
  · simp only [List.mem_append, List.mem_singleton] at hu
    rcases hu with hu | rfl
    · exact hb u hu
    · exact Or.inr ⟨n, hn, ha⟩
  · simp only [List.mem_append, List.mem_singleton] at hu
    rcases hu with hu | rfl
    · exact hb u hu
    · exact Or.inr ⟨n, hn, ha⟩
  · exact hb u hu

theorem hello_origin {subs : NMap Unit} {names : List Name} {a r : NMap Nat × List MissingDataInfo × NMap Nat}
    (hk : ∀ p, (subs.find p).isSome → (a.1.find p).isSome) (h : foldRes (helloStep subs) a names = .ok r) :
    ∀ u ∈ r.2.1, u ∈ a.2.1 ∨ (subs.find u.pfx).isSome ∧ ∃ n ∈ names, announced n = some (u.pfx, u.highSeq) := by
  have := foldRes_inv (P := fun r : NMap Nat × List MissingDataInfo × NMap Nat =>
    (∀ p, (subs.find p).isSome → (r.1.find p).isSome) ∧ ∀ u ∈ r.2.1, u ∈ a.2.1 ∨ (subs.find u.pfx).isSome ∧ ∃ n ∈ names,
    announced n = some (u.pfx, u.highSeq)) names ?_ ⟨hk, fun u hu => Or.inl hu⟩ h
  · exact this.2
  · rintro b n b' hn ⟨hkb, hb⟩ hst
    obtain ⟨q, x, ha, _, _, ⟨c, hs, _, _, h1, h2⟩ | ⟨_, h1, h2⟩⟩ := helloStep_ok hkb hst
    · refine ⟨fun p hp => by rw [h1]; exact find_set_isSome (hkb p hp), fun u hu => ?_⟩
      rw [h2] at hu
      simp only [List.mem_append, List.mem_singleton] at hu
      rcases hu with hu | rfl
      · exact hb u hu
      · exact Or.inr ⟨hs, n, hn, ha⟩
    · exact ⟨by rw [h1]; exact hkb, by rw [h2]; exact hb⟩

end Cons

/-- C48, what holds: a prefix passed to the update callback during an event was subscribed when the event
began, or the application subscribes to it during the event asking for the callback, or the event is the
arrival of sync Data that names it with this number; in the first case of a hello reply it is also named in
the reply.  Missing: sync Data may name prefixes that are not subscribed, and the hello callback may end
subscriptions (see `c48_false`, `c48_false_hello`). -/
theorem c48_origin_partial (cfg : CCfg) (s s' : Cons) (hs : Cons.Reach cfg s) (op : Cons.Op)
    (h : Cons.step cfg s op = .ok s') (ext : List Out) (he : s'.log = s.log ++ ext) (us : List MissingDataInfo)
    (hus : Out.update us ∈ ext) (u : MissingDataInfo) (hu : u ∈ us) :
    (∃ seq, .addSubscription u.pfx seq true ∈ callsIn op) ∨
    (∃ buf a1 a2, op = .helloComplete buf a1 a2 ∧ s.isSubscribed u.pfx = true ∧ (u.pfx, u.highSeq) ∈ announcements buf) ∨
    (∃ buf acts, op = .syncComplete buf acts ∧ (u.pfx, u.highSeq) ∈ announcements buf) := by
  obtain ⟨bf0, _, hi⟩ := hs.moment.inv
  have ann : ∀ {buf st n} {p : Name × Nat}, StateMsg.wireDecode buf = .ok st → n ∈ st.content → announced n = some p →
      p ∈ announcements buf := by
    intro buf st n p h1 h2 h3
    unfold announcements contentNames
    rw [h1]
    exact List.mem_filterMap.mpr ⟨n, h2, h3⟩
  have same : ∀ {l : List Out}, s'.log = s.log ++ l → ext = l := fun hl => List.append_cancel_left (he.symm.trans hl)
  have none : ∀ {n : Name} {lt : Nat}, s'.log = s.log ++ [.interest n lt] → False := fun hl => by
    rw [same hl] at hus; simp at hus
  have none' : s'.log = s.log → False := fun hl => by
    rw [same (l := []) (by simpa using hl)] at hus; simp at hus
  cases op with
  | call c =>
    obtain ⟨e, h1, h2⟩ := Cons.call_updates h
    rw [same h1] at hus
    obtain ⟨seq, h3⟩ := h2 us hus u hu
    exact Or.inl ⟨seq, by simp [callsIn, h3]⟩
  | helloSegment d =>
    simp only [Cons.step] at h
    split at h <;> simp only [Res.ok.injEq] at h <;> subst h
    · exact (none' (by split <;> rfl)).elim
    · exact (none' rfl).elim
  | helloComplete buf a1 a2 =>
    simp only [Cons.step] at h
    split at h
    · unfold Cons.onHelloData at h
      simp only [Res.bind_eq_ok] at h
      obtain ⟨st, hst, r, hr, s1, h1, h2⟩ := h
      obtain ⟨e1, l1, l2⟩ := Cons.calls_updates h1
      have upd : ∀ u ∈ r.2.1, s.isSubscribed u.pfx = true ∧ (u.pfx, u.highSeq) ∈ announcements buf := by
        intro u hu
        rcases Cons.hello_origin hi.sub hr u hu with h | ⟨h3, n, hn, ha⟩
        · simp at h
        · exact ⟨h3, ann hst hn ha⟩
      split at h2
      · simp only [Res.ok.injEq] at h2
        subst h2
        rw [same (l := [.hello r.2.2] ++ e1) (by rw [l1]; simp [Cons.emit])] at hus
        simp only [List.singleton_append, List.mem_cons, reduceCtorEq, false_or] at hus
        obtain ⟨seq, h3⟩ := l2 us hus u hu
        exact Or.inl ⟨seq, List.mem_append_left _ h3⟩
      · obtain ⟨e2, m1, m2⟩ := Cons.calls_updates h2
        rw [same (l := [.hello r.2.2] ++ e1 ++ [.update r.2.1] ++ e2) (by rw [m1]; simp [Cons.emit, l1])] at hus
        simp only [List.mem_append, List.mem_singleton, reduceCtorEq, false_or, Out.update.injEq] at hus
        rcases hus with (hus | rfl) | hus
        · obtain ⟨seq, h3⟩ := l2 us hus u hu
          exact Or.inl ⟨seq, List.mem_append_left _ h3⟩
        · exact Or.inr (Or.inl ⟨buf, a1, a2, rfl, upd u hu⟩)
        · obtain ⟨seq, h3⟩ := m2 us hus u hu
          exact Or.inl ⟨seq, List.mem_append_right _ h3⟩
    · simp only [Res.ok.injEq] at h; exact (none' (by rw [h])).elim
  | helloError =>
    simp only [Cons.step] at h
    split at h <;> simp only [Res.ok.injEq] at h <;> subst h <;> exact (none' rfl).elim
  | syncSegment d =>
    simp only [Cons.step] at h
    split at h
    · split at h <;> simp only [Res.ok.injEq] at h
      · split at h
        · exact (none (by rw [← h]; rfl)).elim
        · exact (none' (by rw [← h])).elim
      · split at h
        · exact (none (by rw [← h]; rfl)).elim
        · exact (none' (by rw [← h])).elim
    · simp only [Res.ok.injEq] at h; exact (none' (by rw [h])).elim
  | syncComplete buf acts =>
    simp only [Cons.step] at h
    split at h
    · split at h
      · simp only [Res.ok.injEq] at h; subst h; exact (none' rfl).elim
      · unfold Cons.onSyncData at h
        simp only [Res.bind_eq_ok] at h
        obtain ⟨st, hst, r, hr, s1, h1, h2⟩ := h
        obtain ⟨_, cs, _, rfl⟩ := Cons.sendSyncInterest_ok h2
        split at h1
        · simp only [Res.ok.injEq] at h1; subst h1
          exact (none rfl).elim
        · obtain ⟨e1, l1, l2⟩ := Cons.calls_updates h1
          rw [same (l := [.update r.2] ++ e1 ++ [.interest (Cons.syncPrefixName cfg ++ cs ++ s1.iblt) cfg.syncLifetime])
            (by simp [Cons.emit, l1])] at hus
          simp only [List.mem_append, List.mem_singleton, reduceCtorEq, or_false, Out.update.injEq] at hus
          rcases hus with rfl | hus
          · rcases Cons.sync_origin hr u hu with h | ⟨n, hn, ha⟩
            · simp at h
            · exact Or.inr (Or.inr ⟨buf, acts, rfl, ann hst hn ha⟩)
          · obtain ⟨seq, h3⟩ := l2 us hus u hu
            exact Or.inl ⟨seq, h3⟩
    · simp only [Res.ok.injEq] at h; exact (none' (by rw [h])).elim
  | syncError t =>
    simp only [Cons.step] at h
    split at h
    · split at h
      · obtain ⟨_, cs, _, rfl⟩ := Cons.sendSyncInterest_ok h
        exact (none rfl).elim
      · simp only [Res.ok.injEq] at h; subst h; exact (none' rfl).elim
    · simp only [Res.ok.injEq] at h; exact (none' (by rw [h])).elim
  | tick t =>
    simp only [Cons.step, Res.ok.injEq] at h
    subst h
    exact (none' (by split <;> rfl)).elim
  | fire =>
    simp only [Cons.step] at h
    split at h
    · simp only [Res.ok.injEq] at h; exact (none' (by rw [h])).elim
    · simp only [Res.ok.injEq] at h; subst h; exact (none rfl).elim
    · obtain ⟨_, cs, _, rfl⟩ := Cons.sendSyncInterest_ok h
      exact (none rfl).elim

end PSync
