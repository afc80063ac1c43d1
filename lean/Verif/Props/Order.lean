import Verif.Props.Consumer
import Verif.Proofs.Merge
/-!
C116: the order in which a consumer receives replies does not matter.
-/
namespace PSync
open Spec

/-- The content that a consumer processes at an event, if any: a hello or sync reply its fetcher has completed (not an
application nack). -/
def Spec.contentNow (s : Cons) : Cons.Op → List Bytes
  | .helloComplete buf _ _ => if s.helloFetcher = some true then [buf] else []
  | .syncComplete buf _ => if s.syncFetcher = some true ∧ s.contentType ≠ .nack then [buf] else []
  | _ => []

/-- The contents a consumer has processed during a sequence of events. -/
def Spec.contentsHeard (cfg : CCfg) : Cons → List Cons.Op → List Bytes
  | _, [] => []
  | s, op :: ops =>
    match Cons.step cfg s op with
    | .ok s' => contentNow s op ++ contentsHeard cfg s' ops
    | _ => contentNow s op

/-- The update callback was told the number `x` of `p`. -/
def Spec.ToldNumber (p : Name) (log : List Out) (x : Nat) : Prop := ∃ r ∈ notified p log, r.1 ≤ x ∧ x ≤ r.2

/-- The application neither subscribes to nor unsubscribes from `p`. -/
def Spec.LeavesAlone (p : Name) (ops : List Cons.Op) : Prop :=
  ∀ op ∈ ops, ∀ c ∈ callsIn op, c ≠ .removeSubscription p ∧ ∀ seq cb, c ≠ .addSubscription p seq cb

namespace Cons

theorem step_best {cfg : CCfg} {s s' : Cons} (hs : Reach cfg s) {op : Op} {p : Name} (hsub : s.isSubscribed p = true)
    (hno : ∀ c ∈ callsIn op, c ≠ .removeSubscription p ∧ ∀ seq cb, c ≠ .addSubscription p seq cb) (h : step cfg s op = .ok s') :
    s'.getSeqNo p = best p (s.getSeqNo p) ((contentNow s op).flatMap announcements) := by
  have same : contentNow s op = [] → s'.prefixes = s.prefixes →
      s'.getSeqNo p = best p (s.getSeqNo p) ((contentNow s op).flatMap announcements) := by
    intro e1 e2
    rw [e1, getSeqNo, getSeqNo, e2]; rfl
  cases op with
  | call c =>
    obtain ⟨e, h1, h2, h3⟩ := call_quiet (p := p) ⟨(hno c (by simp [callsIn])).1, .inr (hno c (by simp [callsIn])).2⟩ h
    rw [h2]; rfl
  | helloSegment d =>
    refine same rfl ?_
    simp only [step] at h
    split at h <;> simp only [Res.ok.injEq] at h <;> subst h
    · split <;> rfl
    · rfl
  | helloComplete buf a1 a2 =>
    by_cases hf : s.helloFetcher = some true
    · have := (c46_hello_merge cfg s s' hs buf a1 a2 hf h).2 p hno
      rw [this, if_pos hsub]
      simp [contentNow, hf]
    · refine same (by simp [contentNow, hf]) ?_
      simp only [step, if_neg hf, Res.ok.injEq] at h
      rw [h]
  | helloError =>
    refine same rfl ?_
    simp only [step] at h
    split at h <;> simp only [Res.ok.injEq] at h <;> subst h <;> rfl
  | syncSegment d =>
    refine same rfl ?_
    simp only [step] at h
    split at h
    · split at h <;> simp only [Res.ok.injEq] at h <;> subst h <;> split <;> rfl
    · simp only [Res.ok.injEq] at h; subst h; rfl
  | syncComplete buf acts =>
    by_cases hf : s.syncFetcher = some true
    · by_cases hn : s.contentType = .nack
      · refine same (by simp [contentNow, hn]) ?_
        simp only [step, hf, if_true, hn, Res.ok.injEq] at h
        subst h; rfl
      · have hb : contentNow s (.syncComplete buf acts) = [buf] := by simp [contentNow, hf, hn]
        rw [hb, List.flatMap_singleton]
        simp only [step, hf, if_true, if_neg hn] at h
        unfold onSyncData at h
        simp only [Res.bind_eq_ok] at h
        obtain ⟨st, hst, r, hr, s1, h1, h2⟩ := h
        obtain ⟨_, cs, _, rfl⟩ := sendSyncInterest_ok h2
        have hbest := sync_best p hr
        have hann : announcements buf = st.content.filterMap announced := by
          unfold announcements contentNames; rw [hst]
        rw [hann]
        show s1.prefixes.find p = _
        split at h1
        · simp only [Res.ok.injEq] at h1
          subst h1
          exact hbest
        · obtain ⟨_, _, l2, _⟩ := calls_quiet (p := p) (fun c hc => ⟨(hno c hc).1, Or.inr (hno c hc).2⟩) h1
          exact l2.trans hbest
    · refine same (by simp [contentNow, hf]) ?_
      simp only [step, if_neg hf, Res.ok.injEq] at h
      rw [h]
  | syncError t =>
    refine same rfl ?_
    simp only [step] at h
    split at h
    · split at h
      · obtain ⟨_, cs, _, rfl⟩ := sendSyncInterest_ok h
        rfl
      · simp only [Res.ok.injEq] at h; subst h; rfl
    · simp only [Res.ok.injEq] at h; subst h; rfl
  | tick t =>
    refine same rfl ?_
    simp only [step, Res.ok.injEq] at h
    subst h
    split <;> rfl
  | fire =>
    refine same rfl ?_
    simp only [step] at h
    split at h
    · simp only [Res.ok.injEq] at h; subst h; rfl
    · simp only [Res.ok.injEq] at h; subst h; rfl
    · obtain ⟨_, cs, _, rfl⟩ := sendSyncInterest_ok h
      rfl

theorem run_best {cfg : CCfg} {p : Name} : ∀ {ops : List Op} {s s' : Cons}, Reach cfg s → s.isSubscribed p = true →
    LeavesAlone p ops → run cfg s ops = .ok s' →
    s'.getSeqNo p = best p (s.getSeqNo p) ((contentsHeard cfg s ops).flatMap announcements) := by
  intro ops
  induction ops with
  | nil => intro s s' _ _ _ h; simp only [run, foldRes, Res.ok.injEq] at h; subst h; rfl
  | cons op ops ih =>
    intro s s' hs hsub hno h
    simp only [run, foldRes, Res.bind_eq_ok] at h
    obtain ⟨s1, h1, h2⟩ := h
    have hrun : run cfg s [op] = .ok s1 := by simp [run, foldRes, h1, Res.bind]
    have hs1 : Reach cfg s1 := by
      obtain ⟨s0, ops0, h0, hr⟩ := hs
      exact ⟨s0, ops0 ++ [op], h0, by rw [run, foldRes_append, ← run, hr]; exact hrun⟩
    have hsub1 : s1.isSubscribed p = true := by
      rw [c47_reflects cfg s s1 [op] p (fun o ho => by rw [List.mem_singleton.mp ho]; exact hno op List.mem_cons_self) hrun]
      exact hsub
    rw [ih hs1 hsub1 (fun o ho => hno o (List.mem_cons_of_mem _ ho)) h2, step_best hs hsub (hno op List.mem_cons_self) h1]
    simp only [contentsHeard, h1, List.flatMap_append, best_append]

end Cons

theorem tiles_cover {a b : Nat} {l : List (Nat × Nat)} (h : Tiles a l b) (x : Nat) :
    (∃ r ∈ l, r.1 ≤ x ∧ x ≤ r.2) ↔ a < x ∧ x ≤ b := by
  induction h with
  | nil a => simp
  | @cons a b h l hle ht ih =>
    have := ht.le
    simp only [List.mem_cons, exists_eq_or_imp, ih]
    omega

/-- C116: a Consumer that processes the same replies in any order, any number of times, with any other events in
between (failures, timeouts, nacks, calls about other prefixes, also from callbacks), ends with the same number for
every prefix it is subscribed to. -/
theorem c116_same_numbers (cfg : CCfg) (s s1 s2 : Cons) (ops1 ops2 : List Cons.Op) (hs : Cons.Reach cfg s) (p : Name)
    (hsub : s.isSubscribed p = true) (hn1 : LeavesAlone p ops1) (hn2 : LeavesAlone p ops2) (h1 : Cons.run cfg s ops1 = .ok s1)
    (h2 : Cons.run cfg s ops2 = .ok s2)
    (hsame : ∀ buf, buf ∈ contentsHeard cfg s ops1 ↔ buf ∈ contentsHeard cfg s ops2) : s1.getSeqNo p = s2.getSeqNo p := by
  rw [Cons.run_best hs hsub hn1 h1, Cons.run_best hs hsub hn2 h2]
  apply best_congr
  intro e
  simp only [List.mem_flatMap]
  constructor
  · rintro ⟨buf, hb, he⟩; exact ⟨buf, (hsame buf).mp hb, he⟩
  · rintro ⟨buf, hb, he⟩; exact ⟨buf, (hsame buf).mpr hb, he⟩

/-- C116, what is reported: the update callback is told the same numbers of the prefix, namely those above the number at
the beginning up to the number at the end. -/
theorem c116_same_reports (cfg : CCfg) (s s1 s2 : Cons) (ops1 ops2 : List Cons.Op) (hs : Cons.Reach cfg s) (p : Name)
    (hsub : s.isSubscribed p = true) (hn1 : LeavesAlone p ops1) (hn2 : LeavesAlone p ops2) (h1 : Cons.run cfg s ops1 = .ok s1)
    (h2 : Cons.run cfg s ops2 = .ok s2)
    (hsame : ∀ buf, buf ∈ contentsHeard cfg s ops1 ↔ buf ∈ contentsHeard cfg s ops2) :
    ∃ x y e1 e2, s.getSeqNo p = some x ∧ s1.getSeqNo p = some y ∧ s1.log = s.log ++ e1 ∧ s2.log = s.log ++ e2 ∧
      (∀ k, ToldNumber p e1 k ↔ x < k ∧ k ≤ y) ∧ ∀ k, ToldNumber p e2 k ↔ ToldNumber p e1 k := by
  obtain ⟨bf0, _, hi⟩ := hs.moment.inv
  obtain ⟨x, hx⟩ := Option.isSome_iff_exists.mp (hi.sub p hsub)
  obtain ⟨e1, y1, a1, a2, _, a4, _⟩ := c46_ranges cfg s s1 hs p x hx ops1 (fun op hop hc => (hn1 op hop _ hc).1 rfl) h1
  obtain ⟨e2, y2, b1, b2, _, b4, _⟩ := c46_ranges cfg s s2 hs p x hx ops2 (fun op hop hc => (hn2 op hop _ hc).1 rfl) h2
  have hy := c116_same_numbers cfg s s1 s2 ops1 ops2 hs p hsub hn1 hn2 h1 h2 hsame
  rw [a2, b2, Option.some.injEq] at hy
  subst hy
  refine ⟨x, y1, e1, e2, hx, a2, a1, b1, fun k => tiles_cover a4 k, fun k => ?_⟩
  rw [ToldNumber, ToldNumber, tiles_cover b4 k, tiles_cover a4 k]

/-- A sync reply of one segment with the given names. -/
def replyOps (names : List Name) : List Cons.Op :=
  [.syncSegment (ibfData (nameOf [115] ++ [SYNC]) .blob []), .syncComplete (encodeNames names) []]

/-- Two replies in one order. -/
def forthOps : List Cons.Op := replyOps [pA.appendNumber 2] ++ replyOps [pB.appendNumber 4, pA.appendNumber 5]

/-- The same replies in the other order, the first of them twice, with a timeout in between. -/
def backOps : List Cons.Op :=
  replyOps [pB.appendNumber 4, pA.appendNumber 5] ++ .syncError true :: replyOps [pA.appendNumber 2] ++
    replyOps [pB.appendNumber 4, pA.appendNumber 5]

set_option synthInstance.maxSize 1024 in
/-- Non-vacuity for C116: both orders reach /a/5; one reports 1-2 and 3-5, the other 1-5. -/
example : (consRun subscribed).get?.bind (fun s => (Cons.run sampleCCfg s forthOps).get?.bind (fun s1 =>
      (Cons.run sampleCCfg s backOps).get?.map (fun s2 =>
        (s.isSubscribed pA, (contentsHeard sampleCCfg s forthOps).length, (contentsHeard sampleCCfg s backOps).length,
         s1.getSeqNo pA, s2.getSeqNo pA, notified pA (s1.log.drop s.log.length), notified pA (s2.log.drop s.log.length)))))
    = some (true, 2, 3, some 5, some 5, [(1, 2), (3, 5)], [(1, 5)]) := by decide +kernel

end PSync
