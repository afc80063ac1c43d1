import Mathlib.Data.List.Induction
import Verif.Proofs.Waiting
import Verif.Proofs.Honest
import Verif.Props.FullMerge
/-!
Properties C29–C31: parked and waiting Interests of a FullProducer.
-/
namespace PSync
open Spec

/-! ### C29 -/

/-- The full claim C29 (one packet per parked Interest, in order). -/
def Spec.PublishAnswersAll : Prop :=
  ∀ cfg : Cfg, cfg.WF → ∀ (s s' : Full), Full.Reach cfg s → ∀ (p : Name) (cur : Nat) (seq : Option Nat),
    s.base.getSeqNo p = some cur → Full.step cfg s (.call (.publishName p seq)) = .ok s' →
    s'.pending = [] ∧ ∃ ext, s'.log = s.log ++ ext ∧ (dataOf ext).length = s.pending.length

/-- C29, partial: publishName on a registered prefix empties the list of parked Interests, and for every
one of them, in order, puts exactly one Data: the first packet of a reply that contains `p/number`, the
number being the given one or the old one plus one.  (Missing: Interest names that end in a segment
component, `c29_false`; that no difference computed on the way is undefined, see C07 and C08.) -/
theorem c29_answers_all_partial (cfg : Cfg) (hwf : cfg.WF) (s s' : Full) (p : Name) (cur : Nat)
    (seq : Option Nat) (hp : s.base.getSeqNo p = some cur)
    (hseg : ∀ n ∈ s.pending.keys, ∃ c, n.getLast? = some c ∧ c.type ≠ 50)
    (h : Full.step cfg s (.call (.publishName p seq)) = .ok s') :
    s'.pending = [] ∧ ∃ ext, s'.log = s.log ++ ext ∧
      List.Forall₂ (fun n d => ∃ content, Name.appendNumber p ((seq.getD (cur + 1)) % 2 ^ 64) ∈ content ∧
        FirstOfReply cfg n content d) s.pending.keys (dataOf ext) := by
  have hfind : s.base.prefixes.find p = some cur := hp
  simp only [Full.step, Full.call, Full.publishName, hfind, Res.bind_eq_ok] at h
  obtain ⟨b, _, h2⟩ := h
  have hq : Full.newSeq seq cur = (seq.getD (cur + 1)) % 2 ^ 64 := by cases seq <;> rfl
  obtain ⟨_, h3, ext, h4, h5⟩ := Full.satisfyLoop hwf.content_lossless s.pending (s := { s with base := b, waitOut := false, made := s.made ++ [(p, Full.newSeq seq cur)] }) (by
    intro e he
    obtain ⟨c, hc, ht⟩ := hseg e.1 (List.mem_map_of_mem he)
    have hne : e.1 ≠ [] := by rintro h; rw [h] at hc; simp at hc
    rw [List.getLast?_eq_getLast_of_ne_nil hne, Option.some.injEq] at hc
    exact ⟨hne, hc ▸ ht⟩) h2
  refine ⟨?_, ext, h4, ?_⟩
  · apply Full.nil_of_find_none
    intro k
    rw [h3]
    split
    · rfl
    · rename_i hk
      cases hf : s.pending.find k with
      | none => rfl
      | some v => exact absurd (List.mem_map_of_mem (f := Prod.fst) (NMap.mem_of_find hf)) hk
  · rw [hq] at h5
    unfold NMap.keys
    rw [List.forall₂_map_left_iff]
    exact h5

/-- A sync Interest with the IBF of a new node whose last component is a segment number. -/
def segmentInterest : Interest := ⟨nameOf [115] ++ [⟨8, List.replicate 72 0⟩, ⟨50, [5]⟩], 1000, 7⟩

set_option synthInstance.maxSize 1024 in
/-- C29 is false as stated: a parked Interest whose name ends in segment number 5 is dropped without Data,
because the reply has no segment 5. -/
theorem c29_false : ¬ Spec.PublishAnswersAll := by
  intro h
  have key : ∃ s, (Res.bind (Full.init sampleCfg) fun s => Full.run sampleCfg s
      [.call (.addUserNode pA), .recvInterest segmentInterest]) = .ok s ∧
      (s.base.prefixes, s.pending.length,
      (Full.step sampleCfg s (.call (.publishName pA none))).get?.map (fun s' : Full =>
        (s'.pending.length, (dataOf (s'.log.drop s.log.length)).length)))
      = ([(pA, 0)], 1, some (0, 0)) := Res.of_get? (by decide +kernel)
  obtain ⟨s, h1, h2⟩ := key
  simp only [Prod.mk.injEq] at h2
  obtain ⟨h3, h4, h5⟩ := h2
  obtain ⟨s', h6, h7⟩ := Res.of_get? h5
  simp only [Prod.mk.injEq] at h7
  rw [Res.bind_eq_ok] at h1
  obtain ⟨s0, h0, h1⟩ := h1
  obtain ⟨_, ext, h8, h9⟩ := h sampleCfg sampleCfg_wf s s' ⟨s0, _, h0, h1⟩ pA 0 none
    (by rw [Base.getSeqNo, h3]; simp [NMap.find]) h6
  rw [h8, List.drop_left] at h7
  omega

set_option synthInstance.maxSize 1024 in
/-- Non-vacuity for C29: two parked Interests (two lifetimes of the IBF, one of them with another count),
both answered with the new name. -/
example : (Res.bind (Full.init sampleCfg) fun s => Full.run sampleCfg s
      [.call (.addUserNode pA), .recvInterest emptyInterest,
       .recvInterest { emptyInterest with name := nameOf [115] ++ [⟨8, List.replicate 72 0⟩, ⟨8, [9]⟩] }]).get?.bind (fun s =>
      (Full.step sampleCfg s (.call (.publishName pA (some 3)))).get?.map (fun s' : Full =>
        (s.pending.length, s'.pending.length, (dataOf (s'.log.drop s.log.length)).map (fun d => namesIn sampleCfg d.content))))
      = some (2, 0, [[pA.appendNumber 3], [pA.appendNumber 3]]) := by decide +kernel

/-! ### C30 -/

/-- `n` was received in an Interest during `ops` (starting in `s0`) that is still alive at `now`. -/
def Spec.ReceivedAlive (cfg : Cfg) (s0 : Full) (ops : List Full.Op) (n : Name) (now : Nat) : Prop :=
  ∃ pre i post s1, ops = pre ++ Full.Op.recvInterest i :: post ∧ Full.run cfg s0 pre = .ok s1 ∧ i.name = n ∧
    now ≤ s1.now + i.lifetime + cfg.lag

/-- The full claim C30: at any moment a parked Interest was received at most its lifetime ago. -/
def Spec.ParkedAlive : Prop :=
  ∀ cfg : Cfg, cfg.WF → ∀ (s0 s : Full) (ops : List Full.Op), Full.init cfg = .ok s0 → Full.run cfg s0 ops = .ok s →
    ∀ n ∈ s.pending.keys, Spec.ReceivedAlive cfg s0 ops n s.now

/-- `n` was on the waiting list when an event of `ops` retried that list, not longer than the default
Interest lifetime of 4000 ms before `now`. -/
def Spec.RetriedAlive (cfg : Cfg) (s0 : Full) (ops : List Full.Op) (n : Name) (now : Nat) : Prop :=
  ∃ pre op post s1, ops = pre ++ op :: post ∧ Full.run cfg s0 pre = .ok s1 ∧
    (op = Full.Op.fireDelay ∨ ∃ buf acts, op = Full.Op.complete buf acts) ∧ n ∈ s1.waiting.keys ∧ now ≤ s1.now + 4000 + cfg.lag

theorem park_origin {cfg : Cfg} {s0 : Full} (h0 : Full.init cfg = .ok s0) (ops : List Full.Op) :
    ∀ {s : Full}, Full.run cfg s0 ops = .ok s → ∀ n e, s.pending.find n = some e → s.now ≤ e.deadline + cfg.lag ∧
      ∃ pre op post s1, ops = pre ++ op :: post ∧ Full.run cfg s0 pre = .ok s1 ∧
        ((∃ i, op = Full.Op.recvInterest i ∧ i.name = n ∧ e.deadline = s1.now + i.lifetime) ∨
         ((op = Full.Op.fireDelay ∨ ∃ buf acts, op = Full.Op.complete buf acts) ∧ n ∈ s1.waiting.keys ∧
           e.deadline = s1.now + defaultLifetime)) := by
  induction ops using List.reverseRecOn with
  | nil =>
    intro s h n e he
    simp only [Full.run, foldRes, Res.ok.injEq] at h
    subst h
    rw [(Full.init_lists h0).2.1] at he
    cases he
  | append_singleton ops op ih =>
    intro s h n e he
    unfold Full.run at h
    rw [foldRes_append] at h
    simp only [Res.bind_eq_ok, foldRes, Res.ok.injEq] at h
    obtain ⟨s1, h1, s2, h2, rfl⟩ := h
    have hl := Full.run_lists (Full.init_lists h0).1 h1
    have old : ∀ {now}, s1.pending.find n = some e → now ≤ e.deadline + cfg.lag → now ≤ e.deadline + cfg.lag ∧ ∃ pre op' post s3,
        ops ++ [op] = pre ++ op' :: post ∧ Full.run cfg s0 pre = .ok s3 ∧
        ((∃ i, op' = Full.Op.recvInterest i ∧ i.name = n ∧ e.deadline = s3.now + i.lifetime) ∨
         ((op' = Full.Op.fireDelay ∨ ∃ buf acts, op' = Full.Op.complete buf acts) ∧ n ∈ s3.waiting.keys ∧
           e.deadline = s3.now + defaultLifetime)) := by
      intro now hf hn
      obtain ⟨_, pre, op', post, s3, h3, h4⟩ := ih h1 n e hf
      exact ⟨hn, pre, op', post ++ [op], s3, by rw [h3]; simp, h4⟩
    cases Full.step_lists hl h2 with
    | shrink hs =>
      have hf := hs.park n e he
      exact old hf (by rw [hs.now]; exact (ih h1 n e hf).1)
    | time t _ ht hta hs =>
      subst hs
      refine old he ?_
      unfold Full.timersAfter at hta
      simp only [Bool.and_eq_true, List.all_eq_true, decide_eq_true_eq] at hta
      exact hta.1.2 _ (NMap.mem_of_find he)
    | interest i hop hh _ _ =>
      rcases hh.park n e he with hf | ⟨hn, hd⟩
      · exact old hf (by rw [hh.now]; exact (ih h1 n e hf).1)
      · refine ⟨by rw [hd, hh.now]; omega, ops, op, [], s1, rfl, h1, Or.inl ⟨i, hop, hn.symm, hd⟩⟩
    | retry s3 hop hs p =>
      rcases p.park n e he with hf | ⟨hn, hd⟩
      · have hf := hs.park n e hf
        exact old hf (by rw [p.now, hs.now]; exact (ih h1 n e hf).1)
      · rw [hs.waiting] at hn
        rw [hs.now] at hd
        exact ⟨by rw [hd, p.now, hs.now]; omega, ops, op, [], s1, rfl, h1, Or.inr ⟨hop, hn, hd⟩⟩

/-- C30, partial: at any moment a parked Interest was received at most its lifetime ago, or was put there
by a retry of the waiting list at most 4000 ms ago.  (Missing: the lifetime of a waiting Interest is
forgotten, `c30_false`.) -/
theorem c30_expires_partial (cfg : Cfg) (s0 s : Full) (ops : List Full.Op) (h0 : Full.init cfg = .ok s0)
    (h : Full.run cfg s0 ops = .ok s) (n : Name) (hn : n ∈ s.pending.keys) :
    Spec.ReceivedAlive cfg s0 ops n s.now ∨ Spec.RetriedAlive cfg s0 ops n s.now := by
  rw [NMap.mem_keys, Option.isSome_iff_exists] at hn
  obtain ⟨e, he⟩ := hn
  obtain ⟨h1, pre, op, post, s1, h2, h3, ⟨i, rfl, h4, h5⟩ | ⟨h4, h5, h6⟩⟩ := park_origin h0 ops h n e he
  · exact Or.inl ⟨pre, i, post, s1, h2, h3, h4, h5 ▸ h1⟩
  · exact Or.inr ⟨pre, op, post, s1, h2, h3, h4, h5, h6 ▸ h1⟩

/-- C30: receiving an Interest that carries our IBF again (not answered from memory) keeps it parked until
one lifetime from now: at that moment it is there and no earlier timer removes it. -/
theorem c30_renewed (cfg : Cfg) (hf : 0 < cfg.fuel) (s s' : Full) (i : Interest) (c : Component)
    (hn : i.name = cfg.syncPrefix ++ [c, ⟨8, nniBytes s.base.numOwn⟩])
    (hnum : s.base.numOwn < 18446744073709551616)
    (hc : Table.initialize cfg.ibltCodec cfg.expected c = .ok s.base.iblt)
    (hst : ∀ d ∈ s.pub.store, ¬ i.name <+: d.name)
    (h : Full.step cfg s (.recvInterest i) = .ok s') :
    (∃ e, s'.pending.find i.name = some e ∧ e.deadline = s.now + i.lifetime) ∧ s'.log = s.log ∧ s'.base = s.base := by
  have hpre : cfg.syncPrefix.isPrefixOf i.name = true := by rw [hn]; simp
  simp only [Full.step, hpre, if_true] at h
  have hstore : s.pub.replyFromStore i.name = none := by
    unfold SegPub.replyFromStore
    rw [storeFind_none]
    intro x hx
    rw [← Bool.not_eq_true, List.isPrefixOf_iff_prefix]
    exact hst x hx
  have hg2 : i.name.getFromEnd 2 = .ok c := by
    rw [hn, getFromEnd_two]
  have hg1 : i.name.getFromEnd 1 = .ok ⟨8, nniBytes s.base.numOwn⟩ := by
    rw [hn, getFromEnd_last]
  have hnm : Component.toNumber ⟨8, nniBytes s.base.numOwn⟩ = .ok s.base.numOwn := by
    unfold Component.toNumber Res.ofOption
    rw [readNni_nniBytes _ hnum]
  obtain ⟨f, hfu⟩ : ∃ f, cfg.fuel = f + 1 := ⟨cfg.fuel - 1, by omega⟩
  have hd : Table.diff cfg.fuel s.base.iblt s.base.iblt = .ok ⟨true, [], []⟩ := by rw [hfu]; exact diff_self _ _
  have hlen : (i.name.drop cfg.syncPrefix.length).length = 2 := by rw [hn]; simp
  unfold Full.onSyncInterest at h
  simp only [hstore, hlen, hg2, hg1, hnm, hc, hd, Res.ok_bind, Full.onDecoded] at h
  simp at h
  subst h
  refine ⟨⟨_, NMap.find_set _ _ _ _ |>.trans (if_pos rfl), rfl⟩, rfl, rfl⟩

/-- C30: publishName only puts Data for Interests that are parked, and whose time has not run out (but for the lag of
their timer). -/
theorem c30_only_alive_answered (cfg : Cfg) (s s' : Full) (hr : Full.Reach cfg s) (p : Name) (seq : Option Nat)
    (h : Full.step cfg s (.call (.publishName p seq)) = .ok s') :
    ∃ ext, s'.log = s.log ++ ext ∧ ∀ d ∈ dataOf ext, ∃ n e, s.pending.find n = some e ∧ s.now ≤ e.deadline + cfg.lag ∧ n <+: d.name := by
  have hdl : ∀ n e, s.pending.find n = some e → s.now ≤ e.deadline + cfg.lag := by
    obtain ⟨s0, ops, h0, h1⟩ := hr
    exact fun n e he => (park_origin h0 ops h1 n e he).1
  have hsort := (Full.reach_lists hr).psorted
  simp only [Full.step, Full.call, Full.publishName] at h
  split at h
  · cases h; exact ⟨[], by simp, by simp [dataOf]⟩
  · simp only [Res.bind_eq_ok] at h
    obtain ⟨b, _, h2⟩ := h
    have key := foldRes_rel (Q := fun a b : Full => ∃ ext, b.log = a.log ++ ext ∧ ∀ d ∈ dataOf ext, ∃ e ∈ s.pending, e.1 <+: d.name)
      (fun a => ⟨[], by simp, by simp [dataOf]⟩)
      (by
        rintro a b c ⟨x, hx, hx'⟩ ⟨y, hy, hy'⟩
        refine ⟨x ++ y, by rw [hy, hx, List.append_assoc], ?_⟩
        intro d hd
        rw [dataOf_append, List.mem_append] at hd
        exact hd.elim (hx' d) (hy' d)) s.pending
      (by
        intro a e b' he h3
        obtain ⟨_, _, content, _, buf, r, is, _, h4, _, h5, h6, _⟩ := Full.satisfyOne_replied h3
        refine ⟨r.2.map Out.data ++ is, by rw [h5, List.append_assoc], ?_⟩
        intro d hd
        rw [dataOf_append, dataOf_map, h6.dataOf, List.append_nil] at hd
        refine ⟨e, he, ?_⟩
        have hd' := publish_data_mem h4 hd
        obtain ⟨k, hk⟩ := List.mem_iff_getElem?.1 hd'
        rw [(segmentData_spec _ _ _).name k d hk, Name.appendVersion, List.append_assoc]
        exact List.prefix_append _ _) h2
    obtain ⟨ext, h3, h4⟩ := key
    refine ⟨ext, h3, fun d hd => ?_⟩
    obtain ⟨⟨n, e⟩, he, hp⟩ := h4 d hd
    have hf := NMap.find_of_mem hsort he
    exact ⟨n, e, hf, hdl n e hf, hp⟩

/-- The sync Interest name of a node that has published /a/1, received with a lifetime of 10 ms. -/
def aheadInterest : Interest :=
  ⟨((Res.bind (Full.init sampleCfg) fun s => Res.bind (Full.run sampleCfg s
    [.call (.addUserNode pA), .call (.publishName pA (some 1))]) fun s => Full.syncName sampleCfg s.base).get?).getD [], 10, 9⟩

/-- The Interest is ahead of a new node and waits; then /a/1 arrives and it is parked; then 50 ms pass. -/
def reparkOps : List Full.Op :=
  [.recvInterest aheadInterest, .complete (encodeNames [pA.appendNumber 1]) [], .tick 50]

set_option synthInstance.maxSize 1024 in
/-- C30 is false as stated: an Interest with a lifetime of 10 ms that has waited is still parked 50 ms
after it was received (for 4 s altogether), because the retry forgets its lifetime. -/
theorem c30_false : ¬ Spec.ParkedAlive := by
  intro h
  have key : ∃ s0, Full.init sampleCfg = .ok s0 ∧ (s0.now, (Full.run sampleCfg s0 reparkOps).get?.map (fun s =>
      (s.now, s.pending.keys))) = (0, some (50, [aheadInterest.name])) := Res.of_get? (by decide +kernel)
  obtain ⟨s0, h0, h1⟩ := key
  simp only [Prod.mk.injEq] at h1
  obtain ⟨s, h2, h3⟩ := Res.of_get? h1.2
  simp only [Prod.mk.injEq] at h3
  obtain ⟨pre, i, post, s1, h4, h5, h6, h7⟩ := h sampleCfg sampleCfg_wf s0 s reparkOps h0 h2 aheadInterest.name (by rw [h3.2]; simp)
  unfold reparkOps at h4
  cases pre with
  | nil =>
    simp only [List.nil_append, List.cons.injEq, Full.Op.recvInterest.injEq] at h4
    simp only [Full.run, foldRes, Res.ok.injEq] at h5
    rw [← h5, h1.1, ← h4.1, h3.1] at h7
    have hl : sampleCfg.lag = 0 := rfl
    simp only [aheadInterest] at h7
    omega
  | cons a pre =>
    cases pre with
    | nil => simp at h4
    | cons b pre =>
      cases pre with
      | nil => simp at h4
      | cons c pre => simp at h4

/-- Non-vacuity for C30: an Interest received at 0 and again at 100 is parked until 1100; publishName at
that time is answered, after the expiry it is not. -/
example : (Res.bind (Full.init sampleCfg) fun s => Full.run sampleCfg s
      [.call (.addUserNode pA), .recvInterest emptyInterest, .tick 100, .recvInterest emptyInterest]).get?.map (fun s =>
        s.pending.map (fun e => (e.1, e.2.deadline))) = some [(emptyInterest.name, 1100)] := by decide +kernel
example : (Res.bind (Full.init sampleCfg) fun s => Full.run sampleCfg s
      [.call (.addUserNode pA), .recvInterest { emptyInterest with lifetime := 50 }, .tick 60, .tick 50,
       .expire emptyInterest.name, .tick 60]).get?.bind (fun s =>
      (Full.step sampleCfg s (.call (.publishName pA none))).get?.map (fun s' : Full =>
        (s.now, s.pending, dataOf s'.log))) = some (60, [], []) := by decide +kernel

/-! ### C31 -/

/-- The event (from `s` to `s'`) runs over the waiting list: its timer is due, or sync Data brought news. -/
def Spec.isRetry (s : Full) (op : Full.Op) (s' : Full) : Bool :=
  match op with
  | .fireDelay => s.delayTimer.any (fun d => decide (d ≤ s.now))
  | .complete _ _ => (s'.log.drop s.log.length).any Spec.isUpdate
  | _ => false

/-- How often the waiting list is retried in a run. -/
def Spec.countRetries (cfg : Cfg) : Full → List Full.Op → Nat
  | _, [] => 0
  | s, op :: ops =>
    match Full.step cfg s op with
    | .ok s' => (if Spec.isRetry s op s' then 1 else 0) + Spec.countRetries cfg s' ops
    | _ => 0

/-- `n` is on the waiting list before, during and after a run. -/
def Spec.StaysWaiting (cfg : Cfg) (n : Name) : Full → List Full.Op → Prop
  | s, [] => n ∈ s.waiting.keys
  | s, op :: ops => n ∈ s.waiting.keys ∧
    match Full.step cfg s op with
    | .ok s' => Spec.StaysWaiting cfg n s' ops
    | _ => False

/-- What a retry event consists of. -/
theorem retry_event {cfg : Cfg} {s s' : Full} {op : Full.Op} (hi : s.base.Inv) (hl : Full.Lists cfg s)
    (h : Full.step cfg s op = .ok s') (hr : Spec.isRetry s op s' = true) :
    ∃ s1 s2, Full.Shrunk s s1 ∧ s1.base.Inv ∧ s'.base = s1.base ∧ Full.processWaiting cfg s1 = .ok s2 ∧
      s'.waiting = s2.waiting ∧ ∀ n, (n.drop cfg.syncPrefix.length).length = 2 → n ∉ s.pending.keys →
        s.pub.replyFromStore n = none → s1.pub.replyFromStore n = none := by
  cases op with
  | fireDelay =>
    simp only [Spec.isRetry] at hr
    simp only [Full.step] at h
    cases hd : s.delayTimer with
    | none => simp [hd] at hr
    | some d =>
      simp only [hd, Option.any_some, decide_eq_true_eq] at hr h
      rw [if_pos hr] at h
      simp only [Res.bind_eq_ok, Res.ok.injEq] at h
      obtain ⟨s2, h1, rfl⟩ := h
      refine ⟨{ s with delayTimer := none }, s2, (Full.Shrunk.refl s).congr rfl rfl rfl, hi, ?_, h1, ?_, fun _ _ _ h => h⟩
      · rw [Full.scheduleProcess_base]
        exact Full.processWaiting_base (s := { s with delayTimer := none }) hi h1
      · rw [Full.scheduleProcess_eq]
  | complete buf acts =>
    simp only [Spec.isRetry] at hr
    simp only [Full.step] at h
    have hno : s'.log = s.log → False := by
      intro e
      rw [e] at hr
      simp at hr
    split at h
    · split at h
      · unfold Full.onSyncData at h
        simp only at h
        split at h
        · cases h; exact (hno rfl).elim
        · simp only [Res.bind_eq_ok] at h
          obtain ⟨r, h1, h2⟩ := h
          split at h2
          · cases h2; exact (hno rfl).elim
          · simp only [Res.bind_eq_ok] at h2
            obtain ⟨s1, h3, h4⟩ := h2
            have h5 := Full.calls_shrunk h3
            have h0 : ∀ m, Full.Shrunk s (s.stopFetcher.deletePending m) := fun m =>
              Full.Shrunk.delete ((Full.Shrunk.refl s).congr rfl rfl rfl : Full.Shrunk s s.stopFetcher) m
            have hm : Base.Steps (fun _ => True) s.base r.2 := Full.merge_steps _ h1
            have hi2 : s1.base.Inv := (Full.calls_steps h3).inv (hm.inv hi)
            refine ⟨_, s', ?_, ?_, Full.processWaiting_base ?_ h4, h4, rfl, ?_⟩
            · have h6 : Full.Shrunk s s1 := by
                refine Full.Shrunk.trans ?_ h5
                exact (h0 _).congr rfl rfl rfl
              exact h6.congr rfl rfl rfl
            · exact hi2
            · exact hi2
            · intro n hlen hp hn
              have key : ∀ x : Full, Full.Shrunk s x → x.pub = s.pub → foldRes (Full.call cfg) x acts = .ok s1 →
                  s1.pub.replyFromStore n = none := by
                intro x hx hpub hc
                refine Full.calls_other acts (hx.lists hl) hlen ?_ (hpub.symm ▸ hn) hc
                intro hk
                rw [NMap.mem_keys, Option.isSome_iff_exists] at hk
                obtain ⟨e, he⟩ := hk
                exact hp (by rw [NMap.mem_keys, hx.park n e he]; rfl)
              refine key _ ?_ ?_ h3
              · exact (h0 _).congr rfl rfl rfl
              · rfl
      · cases h; exact (hno rfl).elim
    · cases h; exact (hno rfl).elim
  | _ => simp [Spec.isRetry] at hr

theorem keys_some {β : Type} {m : NMap β} {n : Name} (h : n ∈ m.keys) : ∃ w, m.find n = some w := by
  rw [NMap.mem_keys, Option.isSome_iff_exists] at h
  exact h

/-- A retry either drops an Interest or counts it. -/
theorem retry_counts {cfg : Cfg} {s s' : Full} {op : Full.Op} (hi : s.base.Inv) (hl : Full.Lists cfg s)
    (h : Full.step cfg s op = .ok s') (hr : Spec.isRetry s op s' = true) {n : Name} {w w' : Waiting}
    (hw : s.waiting.find n = some w) (hw' : s'.waiting.find n = some w') :
    w'.numTries = w.numTries + 1 ∧ w.numTries + 1 < 65535 := by
  obtain ⟨s1, s2, h1, _, _, h2, h3, _⟩ := retry_event hi hl h hr
  have p := Full.processWaiting_passed (h1.lists hl) h2
  rw [h1.waiting] at p
  have hk : n ∈ s.waiting.keys := by rw [NMap.mem_keys, hw]; rfl
  rw [h3] at hw'
  rcases p.same n hk with h4 | ⟨w0, h4, h5, h6⟩
  · rw [h4] at hw'; cases hw'
  · rw [h1.waiting, hw] at h4
    cases h4
    rw [h6] at hw'
    cases hw'
    exact ⟨rfl, h5⟩

/-- No event counts backwards. -/
theorem tries_mono {cfg : Cfg} {s s' : Full} {op : Full.Op} (hl : Full.Lists cfg s)
    (h : Full.step cfg s op = .ok s') {n : Name} {w w' : Waiting}
    (hw : s.waiting.find n = some w) (hw' : s'.waiting.find n = some w') : w.numTries ≤ w'.numTries := by
  cases Full.step_lists hl h with
  | shrink hs => rw [hs.waiting, hw] at hw'; cases hw'; exact Nat.le_refl _
  | time t _ _ _ hs => subst hs; simp only [hw, Option.some.injEq] at hw'; rw [hw']
  | interest i _ hh _ _ =>
    by_cases hn : n = i.name
    · subst hn
      rcases hh.same with h1 | ⟨w0, h0, h1⟩ | ⟨_, h0, _⟩
      · rw [h1, hw] at hw'; cases hw'; exact Nat.le_refl _
      · rw [h1] at hw'; cases hw'; exact hl.tries _ _ hw
      · rw [hw] at h0; cases h0
    · rw [hh.other n hn, hw] at hw'; cases hw'; exact Nat.le_refl _
  | retry s1 _ hs p =>
    rw [hs.waiting] at p
    have hk : n ∈ s.waiting.keys := by rw [NMap.mem_keys, hw]; rfl
    rcases p.same n hk with h4 | ⟨w0, h4, h5, h6⟩
    · rw [h4] at hw'; cases hw'
    · rw [hs.waiting, hw] at h4
      cases h4
      rw [h6] at hw'
      cases hw'
      exact Nat.le_succ _

theorem staysWaiting_count {cfg : Cfg} {n : Name} (ops : List Full.Op) : ∀ {s s' : Full}, s.base.Inv → Full.Lists cfg s →
    Full.run cfg s ops = .ok s' → Spec.StaysWaiting cfg n s ops →
    ∃ w w', s.waiting.find n = some w ∧ s'.waiting.find n = some w' ∧
      w.numTries + Spec.countRetries cfg s ops ≤ w'.numTries ∧
      (Spec.countRetries cfg s ops = 0 ∨ w.numTries + Spec.countRetries cfg s ops < 65535) := by
  induction ops with
  | nil =>
    intro s s' _ _ h hs
    simp only [Full.run, foldRes, Res.ok.injEq] at h
    subst h
    obtain ⟨w, hw⟩ := keys_some hs
    exact ⟨w, w, hw, hw, by simp [Spec.countRetries], Or.inl rfl⟩
  | cons op ops ih =>
    intro s s' hi hl h hs
    simp only [Full.run, foldRes, Res.bind_eq_ok] at h
    obtain ⟨s1, h1, h2⟩ := h
    simp only [Spec.StaysWaiting, h1] at hs
    obtain ⟨w, hw⟩ := keys_some hs.1
    obtain ⟨w1, w', hw1, hw', hc, hb⟩ := ih ((Full.step_steps h1).inv hi) ((Full.step_lists hl h1).lists hl) h2 hs.2
    refine ⟨w, w', hw, hw', ?_⟩
    have hm := tries_mono hl h1 hw hw1
    simp only [Spec.countRetries, h1]
    cases hr : Spec.isRetry s op s1 with
    | false => simp only [Bool.false_eq_true, if_false]; omega
    | true =>
      simp only [if_true]
      have := retry_counts hi hl h1 hr hw hw1
      omega

/-- C31: an Interest that stays on the waiting list is retried at most 65534 times (the next retry drops
it), whatever happens in between. -/
theorem c31_bounded (cfg : Cfg) (s s' : Full) (hs : Full.Reach cfg s) (ops : List Full.Op) (n : Name)
    (h : Full.run cfg s ops = .ok s') (hn : Spec.StaysWaiting cfg n s ops) :
    Spec.countRetries cfg s ops ≤ 65534 := by
  obtain ⟨w, w', _, _, _, h1⟩ := staysWaiting_count ops (Full.reach_inv hs) (Full.reach_lists hs) h hn
  omega

/-- C31: an Interest that has been retried before and is still ahead of us at the next retry is dropped by
it: it is retried at most twice.  (Ahead: not parked and no packet for it in our memory before the event, and against our
state after the event the difference decodes to data we miss only, or does not decode and the Interest
reports more publications than ours.) -/
theorem c31_at_most_twice (cfg : Cfg) (s s1 s2 : Full) (hs : Full.Reach cfg s) (ops : List Full.Op) (op : Full.Op)
    (n : Name) (h : Full.run cfg s ops = .ok s1) (hn : Spec.StaysWaiting cfg n s ops)
    (hc : 1 ≤ Spec.countRetries cfg s ops) (h2 : Full.step cfg s1 op = .ok s2)
    (hr : Spec.isRetry s1 op s2 = true) (hp : n ∉ s1.pending.keys)
    (ha : AheadOf cfg s1.pub s2.base n) : n ∉ s2.waiting.keys := by
  have hi := Full.reach_inv hs
  have hl := Full.reach_lists hs
  obtain ⟨w, w', _, hw', hle, _⟩ := staysWaiting_count ops hi hl h hn
  have hi1 := (Full.run_steps h).inv hi
  have hl1 := Full.run_lists hl h
  obtain ⟨s3, s4, g1, g2, g3, g4, g5, g6⟩ := retry_event hi1 hl1 h2 hr
  have hk : n ∈ s3.waiting.keys := by rw [g1.waiting, NMap.mem_keys, hw']; rfl
  have hl3 := g1.lists hl1
  have hlen : ∀ k w, s3.waiting.find k = some w → k.length = cfg.syncPrefix.length + 2 := by
    intro k w hk
    have := hl3.len k w hk
    rw [List.length_drop] at this
    omega
  have hnone := Full.pass_ahead (cfg := cfg) (n := n) s3.waiting.keys (NMap.keys_nodup hl3.sorted) hk g2
    (by
      intro k hk'
      obtain ⟨w1, hw1⟩ := keys_some hk'
      obtain ⟨w2, hw2⟩ := keys_some hk
      rw [hlen k w1 hw1, hlen n w2 hw2])
    (fun k _ w hw => hl3.tries k w hw)
    (by rw [← g3]; exact ⟨g6 n ha.2.choose_spec.choose_spec.choose_spec.choose_spec.choose_spec.1 hp ha.1, ha.2⟩)
    (by
      intro w2 hw2
      rw [g1.waiting, hw'] at hw2
      cases hw2
      omega)
    g4
  intro hmem
  obtain ⟨w3, hw3⟩ := keys_some hmem
  rw [g5, hnone] at hw3
  cases hw3

/-- Two retries 101 ms and 100 ms later, before any news. -/
def retryOps : List Full.Op := [.recvInterest aheadInterest, .tick 101, .fireDelay]

set_option synthInstance.maxSize 1024 in
/-- Non-vacuity for C31: the Interest survives the first retry (counted), and the second one drops it. -/
example : (Res.bind (Full.init sampleCfg) fun s => Full.run sampleCfg s retryOps).get?.bind (fun s =>
      (Full.run sampleCfg s [.tick 201]).get?.bind (fun s1 => (Full.step sampleCfg s1 .fireDelay).get?.map (fun s2 =>
        (s.waiting.map (fun e => e.2.numTries), Spec.isRetry s1 .fireDelay s2, s2.waiting)))) = some ([1], true, []) := by
  decide +kernel

end PSync
