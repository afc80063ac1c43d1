import Verif.Proofs.Kept
import Verif.Props.PartialSync
import Verif.Props.FullPending
/-!
Property C72: a parked Interest is kept for its lifetime.
-/
namespace PSync
open Spec

/-! ### Full sync -/

/-- A fetch of the node itself for the Interest name `k` completes during `ops`. -/
def Spec.OwnFetch (cfg : Cfg) (s : Full) (ops : List Full.Op) (k : Name) : Prop :=
  ∃ a buf acts b sa f, ops = a ++ .complete buf acts :: b ∧ Full.run cfg s a = .ok sa ∧ sa.fetcher = some f ∧
    f.active = true ∧ f.name = k

theorem Full.Reach.more {cfg : Cfg} {s s' : Full} (hr : Full.Reach cfg s) {ops : List Full.Op} (h : Full.run cfg s ops = .ok s') :
    Full.Reach cfg s' := by
  obtain ⟨s0, pre, h1, h2⟩ := hr
  refine ⟨s0, pre ++ ops, h1, ?_⟩
  unfold Full.run
  rw [foldRes_append, Res.bind_eq_ok]
  exact ⟨s, h2, h⟩

theorem Part.Reach.more {cfg : Cfg} {s s' : Part} (hr : Part.Reach cfg s) {ops : List Part.Op} (h : Part.run cfg s ops = .ok s') :
    Part.Reach cfg s' := by
  obtain ⟨pre, h1⟩ := hr
  refine ⟨pre ++ ops, ?_⟩
  unfold Part.run
  rw [foldRes_append, Res.bind_eq_ok]
  exact ⟨s, h1, h⟩

theorem Full.step_now_le {cfg : Cfg} {s s' : Full} (hr : Full.Reach cfg s) {op : Full.Op} (h : Full.step cfg s op = .ok s') :
    s.now ≤ s'.now := by
  cases Full.step_lists (Full.reach_lists hr) h with
  | shrink hs => exact hs.now.ge
  | time t _ ht _ he => rw [he]; exact ht
  | interest i _ hh _ _ => exact hh.now.ge
  | retry s1 _ hs hp => rw [← hs.now]; exact hp.now.ge

theorem Full.run_parks_on {cfg : Cfg} {k : Name} {D : Nat} (hk : k ≠ []) (hty : (k.getLast hk).type ≠ 50) (ops : List Full.Op) :
    ∀ {s s' : Full}, Full.Reach cfg s → D ≤ s.now + 4000 → (∃ e, s.pending.find k = some e ∧ D ≤ e.deadline) →
    (∀ i, Full.Op.recvInterest i ∈ ops → i.name ≠ k) → ¬ OwnFetch cfg s ops k → Full.run cfg s ops = .ok s' → s'.now < D →
    s.now ≤ s'.now ∧ ∃ ext, s'.log = s.log ++ ext ∧
      ((∃ d ∈ dataOf ext, k <+: d.name) ∨ ∃ e, s'.pending.find k = some e ∧ D ≤ e.deadline) := by
  induction ops using List.reverseRecOn with
  | nil =>
    intro s s' _ _ hp _ _ h _
    simp only [Full.run, foldRes, Res.ok.injEq] at h
    subst h
    exact ⟨le_refl _, [], by simp, .inr hp⟩
  | append_singleton ops op ih =>
    intro s s' hr hD hp hrecv hown h hlt
    unfold Full.run at h
    rw [foldRes_append] at h
    simp only [Res.bind_eq_ok, foldRes, Res.ok.injEq] at h
    obtain ⟨s1, h1, s2, h2, rfl⟩ := h
    have hmono : s1.now ≤ s2.now := Full.step_now_le (hr.more h1) h2
    obtain ⟨hle, ext, e1, h3⟩ := ih hr hD hp (fun i hi => hrecv i (by simp [hi])) (fun ⟨a, buf, acts, b, sa, f, ha, hx⟩ =>
      hown ⟨a, buf, acts, b ++ [op], sa, f, by rw [ha]; simp, hx⟩) h1 (by omega)
    refine ⟨by omega, ?_⟩
    rcases Full.step_parks_on (k := k) (D := D) hk hty (by unfold defaultLifetime; omega) (by omega)
      (fun i hi => hrecv i (by simp [hi]))
      (fun buf acts hop f hf ha hn => hown ⟨ops, buf, acts, [], s1, f, by rw [hop], h1, hf, ha, hn⟩) h2 with ⟨t, rfl⟩ | ⟨_, ext', e2, h4⟩
    · simp only [Full.step, Res.ok.injEq] at h2
      subst h2
      refine ⟨ext, by split <;> exact e1, ?_⟩
      split <;> exact h3
    · refine ⟨ext ++ ext', by rw [e2, e1, List.append_assoc], ?_⟩
      rw [dataOf_append]
      rcases h3 with ⟨d, hd, hkd⟩ | ⟨e, he, hde⟩
      · exact .inl ⟨d, List.mem_append_left _ hd, hkd⟩
      · rcases h4 with ⟨d, hd, hkd⟩ | h4
        · exact .inl ⟨d, List.mem_append_right _ hd, hkd⟩
        · exact .inr (h4 e he hde)

/-- Intended: an Interest that a full-sync node parks stays parked for its lifetime unless the node sends Data for it. -/
def Spec.ParkedForLifetime : Prop :=
  ∀ (cfg : Cfg), cfg.WF → ∀ (s1 s2 s : Full), Full.Reach cfg s1 → ∀ i : Interest, Full.step cfg s1 (.recvInterest i) = .ok s2 →
    i.name ∉ s1.pending.keys → i.name ∈ s2.pending.keys → ∀ ops : List Full.Op, Full.run cfg s2 ops = .ok s →
    (∀ i', Full.Op.recvInterest i' ∈ ops → i'.name ≠ i.name) → s.now < s1.now + i.lifetime →
    i.name ∈ s.pending.keys ∨ ∃ ext, s.log = s2.log ++ ext ∧ ∃ d ∈ dataOf ext, i.name <+: d.name

set_option synthInstance.maxSize 1024 in
/-- C72 is false as stated for full sync: a node parks an Interest with the name of its own outstanding one; when a
reply to its own arrives the parked one is dropped without an answer. -/
theorem c72_false : ¬ Spec.ParkedForLifetime := by
  intro h
  have key : ∃ s1, Full.init sampleCfg = .ok s1 ∧ (s1.pending.keys, s1.now, (Full.step sampleCfg s1 (.recvInterest emptyInterest)).get?.map
      (fun s2 : Full => (s2.pending.keys, (Full.run sampleCfg s2 [.complete (encodeNames [pA.appendNumber 1]) []]).get?.map (fun s =>
        (s.pending.keys, s.now, (dataOf (s.log.drop s2.log.length)).length)))))
      = ([], 0, some ([emptyInterest.name], some ([], 0, 0))) := Res.of_get? (by decide +kernel)
  obtain ⟨s1, h0, h1⟩ := key
  simp only [Prod.mk.injEq] at h1
  obtain ⟨h1, hn1, h2⟩ := h1
  obtain ⟨s2, h3, h4⟩ := Res.of_get? h2
  simp only [Prod.mk.injEq] at h4
  obtain ⟨h4, h5⟩ := h4
  obtain ⟨s, h6, h7⟩ := Res.of_get? h5
  simp only [Prod.mk.injEq] at h7
  obtain ⟨h7, h8, h9⟩ := h7
  rcases h sampleCfg sampleCfg_wf s1 s2 s ⟨s1, [], h0, rfl⟩ emptyInterest h3 (by rw [h1]; simp) (by rw [h4]; simp) _ h6
    (by simp) (by rw [h8, hn1]; decide) with h | ⟨ext, h, d, hd, _⟩
  · rw [h7] at h; simp at h
  · rw [h, List.drop_left, List.length_eq_zero_iff] at h9
    rw [h9] at hd
    simp at hd

/-- C72 for full sync: a sync Interest that a node parks stays parked for its lifetime, or for 4000 ms if its lifetime is
longer, unless the node sends Data for it before, or receives itself the Data for an Interest of its own with
the same name (or the Interest is received again, which starts its time anew, `c30_renewed`). -/
theorem c72_full_partial (cfg : Cfg) (s1 s2 s : Full) (hr : Full.Reach cfg s1) (i : Interest)
    (h : Full.step cfg s1 (.recvInterest i) = .ok s2) (hnew : i.name ∉ s1.pending.keys) (hpark : i.name ∈ s2.pending.keys)
    (hseg : ∀ c, i.name.getLast? = some c → c.type ≠ 50)
    (ops : List Full.Op) (hrun : Full.run cfg s2 ops = .ok s) (hrecv : ∀ i', Full.Op.recvInterest i' ∈ ops → i'.name ≠ i.name)
    (hown : ¬ OwnFetch cfg s2 ops i.name) (htime : s.now < s1.now + i.lifetime) (htime' : s.now < s1.now + 4000) :
    i.name ∈ s.pending.keys ∨ ∃ ext, s.log = s2.log ++ ext ∧ ∃ d ∈ dataOf ext, i.name <+: d.name := by
  rw [NMap.mem_keys, Option.isSome_iff_exists] at hpark
  obtain ⟨e, he⟩ := hpark
  have hold : s1.pending.find i.name = none := by
    rw [NMap.mem_keys] at hnew
    simpa using hnew
  have hd : s2.now = s1.now ∧ e.deadline = s1.now + i.lifetime := by
    cases Full.step_lists (Full.reach_lists hr) h with
    | shrink hs => have := hs.park _ _ he; rw [hold] at this; cases this
    | time t hop _ _ _ => cases hop
    | interest i' hop hh _ _ =>
      cases hop
      rcases hh.park _ _ he with hf | ⟨_, hd⟩
      · rw [hold] at hf; cases hf
      · exact ⟨hh.now, hd⟩
    | retry s3 hop _ _ => rcases hop with hop | ⟨_, _, hop⟩ <;> cases hop
  have hne : i.name ≠ [] := by
    intro h0
    have hs : cfg.syncPrefix.isPrefixOf i.name = true ∨ ¬ cfg.syncPrefix.isPrefixOf i.name = true := em _
    simp only [Full.step] at h
    rcases hs with hs | hs
    · rw [if_pos hs] at h
      rcases Full.onSyncInterest_cases h with ⟨d, _, rfl⟩ | ⟨_, ⟨d, _, _, rfl⟩ | rfl | ⟨c2, c1, num, ib, df, hl, _⟩⟩
      · exact absurd he (by show s1.pending.find i.name ≠ _; rw [hold]; simp)
      · exact absurd he (by show s1.pending.find i.name ≠ _; rw [hold]; simp)
      · rw [hold] at he; cases he
      · rw [h0] at hl; simp at hl
    · rw [if_neg hs] at h
      cases h
      rw [hold] at he; cases he
  have hty : (i.name.getLast hne).type ≠ 50 := hseg _ (List.getLast?_eq_some_getLast hne)
  obtain ⟨_, ext, e1, h3⟩ := Full.run_parks_on (k := i.name) (D := min (s1.now + i.lifetime) (s1.now + 4000)) hne hty ops
    (hr.next h) (by omega) ⟨e, he, by omega⟩ hrecv hown hrun (by omega)
  rcases h3 with ⟨d, hd, hk⟩ | ⟨e, he, _⟩
  · exact .inr ⟨ext, e1, d, hd, hk⟩
  · left
    rw [NMap.mem_keys, he]
    rfl

set_option synthInstance.maxSize 1024 in
/-- Non-vacuity for `c72_full_partial`: parked at 100 for 1000 ms, still parked at 900 after the node's own Interest was
renewed; answered by a publication otherwise. -/
example : (Res.bind (Full.init sampleCfg) fun s => Full.run sampleCfg s [.call (.addUserNode pA), .tick 100]).get?.bind (fun s1 : Full =>
      (Full.step sampleCfg s1 (.recvInterest emptyInterest)).get?.bind (fun s2 : Full =>
        (Full.run sampleCfg s2 [.tick 600, .fireSync, .tick 900]).get?.map (fun s : Full =>
          (s1.pending.keys, s2.pending.keys, s.pending.keys, s.now, (Full.run sampleCfg s [.call (.publishName pA none)]).get?.map
            (fun s' : Full => (s'.pending.keys, (dataOf (s'.log.drop s2.log.length)).map (fun d => decide (emptyInterest.name <+: d.name))))))))
    = some ([], [emptyInterest.name], [emptyInterest.name], 900, some ([], [true])) := by decide +kernel

/-! ### Partial sync -/

/-- A publication in `ops` after which the difference to the IBF of the parked Interest `k` does not decode. -/
def Spec.Outgrown (cfg : Cfg) (s : Part) (ops : List Part.Op) (k : Name) : Prop :=
  ∃ a p seq b sa sb bf t diff, ops = a ++ .publishName p seq :: b ∧ Part.run cfg s a = .ok sa ∧
    Part.step cfg sa (.publishName p seq) = .ok sb ∧ SyncFields cfg k bf t ∧
    Table.diff cfg.fuel sb.base.iblt t = .ok diff ∧ diff.canDecode = false

theorem served_stays {cfg : Cfg} {t : Table} {p : Name} {x : Nat} {before after : List (Name × PPending)} {ds : List Data}
    (h : Served cfg t p x before ds after) {k : Name} {e : PPending} (hm : (k, e) ∈ before)
    (hseg : ∀ c, k.getLast? = some c → c.type ≠ 50) (hk : k ≠ []) :
    (k, e) ∈ after ∨ (∃ d ∈ ds, k <+: d.name) ∨ ∃ diff, Table.diff cfg.fuel t e.iblt = .ok diff ∧ diff.canDecode = false := by
  have sent : ∀ {content packets}, PartReply cfg t k k content packets → ∃ d ∈ packets, k <+: d.name := by
    rintro content packets ⟨c, _, v, segs, hs, rfl⟩
    obtain ⟨d, ds, rfl⟩ := List.exists_cons_of_ne_nil (List.ne_nil_of_length_pos hs.nonempty)
    obtain ⟨l, hl⟩ : ∃ l, k.getLast? = some l := ⟨_, List.getLast?_eq_some_getLast hk⟩
    refine ⟨d, by simp [asked, hl, hseg l hl], ?_⟩
    rw [hs.name 0 d rfl, Name.appendVersion]
    simp only [List.append_assoc]
    exact List.prefix_append _ _
  induction h with
  | nil => simp at hm
  | undecodable n e' diff h1 h2 _ ih =>
    rcases List.mem_cons.mp hm with hm | hm
    · cases hm; exact .inr (.inr ⟨diff, h1, h2⟩)
    · exact ih hm
  | subscribed n e' diff packets h1 h2 h3 h4 _ ih =>
    rcases List.mem_cons.mp hm with hm | hm
    · cases hm
      obtain ⟨d, hd, hkd⟩ := sent h4
      exact .inr (.inl ⟨d, List.mem_append_left _ hd, hkd⟩)
    · rcases ih hm with h | ⟨d, hd, hkd⟩ | h
      · exact .inl h
      · exact .inr (.inl ⟨d, List.mem_append_right _ hd, hkd⟩)
      · exact .inr (.inr h)
  | behind n e' diff packets h1 h2 h3 h4 h5 _ ih =>
    rcases List.mem_cons.mp hm with hm | hm
    · cases hm
      obtain ⟨d, hd, hkd⟩ := sent h5
      exact .inr (.inl ⟨d, List.mem_append_left _ hd, hkd⟩)
    · rcases ih hm with h | ⟨d, hd, hkd⟩ | h
      · exact .inl h
      · exact .inr (.inl ⟨d, List.mem_append_right _ hd, hkd⟩)
      · exact .inr (.inr h)
  | keep n e' diff h1 h2 h3 h4 _ ih =>
    rcases List.mem_cons.mp hm with hm | hm
    · cases hm; exact .inl (by simp)
    · exact (ih hm).imp (fun h => List.mem_cons_of_mem _ h) id

theorem asksFor_key {cfg : Cfg} {k k' : Name} {bf bf' : Bloom} {t t' : Table} (h : SyncFields cfg k bf t)
    (h' : SyncFields cfg k' bf' t') (ha : AsksFor k k') : k = k' := by
  rcases ha with ha | ⟨v, g, ha⟩
  · exact ha
  · obtain ⟨c1, c2, c3, c4, _, _, e, _⟩ := h
    obtain ⟨d1, d2, d3, d4, _, _, e', _⟩ := h'
    have := congrArg List.length ha
    rw [e, e'] at this
    simp at this

/-- The timer of a parked Interest runs at `D` at the earliest. -/
def Part.Until (s : Part) (k : Name) (D : Nat) : Prop :=
  ∃ e, s.pending.find k = some e ∧ ∀ d, e.timer = some d → D ≤ d

theorem Part.onHelloInterest_log {cfg : Cfg} {s s' : Part} {i : Interest} (h : Part.onHelloInterest cfg s i = .ok s') :
    ∃ ext, s'.log = s.log ++ ext := by
  unfold Part.onHelloInterest at h
  split at h
  · cases h; exact ⟨_, rfl⟩
  · simp only [Res.bind_eq_ok] at h
    obtain ⟨_, _, _, _, h⟩ := h
    split at h
    · cases h; exact ⟨[], by simp⟩
    · simp only [Res.bind_eq_ok] at h
      obtain ⟨_, _, h⟩ := h
      obtain ⟨r, _, rfl⟩ := Part.publish_ok h
      exact ⟨_, rfl⟩

theorem Part.publishName_log {cfg : Cfg} {s s' : Part} (hr : Part.Reach cfg s) {p : Name} {seq : Option Nat}
    (h : Part.step cfg s (.publishName p seq) = .ok s') : ∃ ext, s'.log = s.log ++ ext := by
  cases hreg : s.base.getSeqNo p with
  | none =>
    simp only [Part.step, Part.publishName] at h
    unfold Base.getSeqNo at hreg
    rw [hreg] at h
    cases h
    exact ⟨[], by simp⟩
  | some x0 =>
    obtain ⟨x, ds, _, _, hlog⟩ := c42_publish_serves cfg s s' hr p seq (by rw [hreg]; rfl) h
    exact ⟨_, hlog⟩

theorem Part.step_grows {cfg : Cfg} {s s' : Part} (hr : Part.Reach cfg s) {op : Part.Op} (h : Part.step cfg s op = .ok s') :
    s.now ≤ s'.now ∧ ∃ ext, s'.log = s.log ++ ext := by
  cases op with
  | publishName p seq => exact ⟨(Part.publishName_shrink h).1.ge, Part.publishName_log hr h⟩
  | recvInterest i =>
    simp only [Part.step] at h
    split at h
    · exact ⟨(Part.onHelloInterest_now h).ge, Part.onHelloInterest_log h⟩
    · split at h
      · rename_i hpre
        have hpre := List.isPrefixOf_iff_prefix.mp hpre
        refine ⟨(Part.onSyncInterest_now hpre h).ge, ?_⟩
        rcases Part.onSyncInterest_cases' hpre h with ⟨d, _, rfl⟩ | ⟨_, rfl | ⟨key, bf, iblt, hf, hka, h3⟩⟩
        · exact ⟨_, rfl⟩
        · exact ⟨[], by simp⟩
        · obtain ⟨diff, _, ⟨_, d, _, rfl⟩ | ⟨_, content, _, ⟨_, c, r, _, _, rfl⟩ | ⟨_, _, rfl⟩⟩⟩ := Part.onSyncParsed_ok h3
          · exact ⟨_, rfl⟩
          · exact ⟨_, rfl⟩
          · exact ⟨[], by simp⟩
      · cases h; exact ⟨le_refl _, [], by simp⟩
  | _ =>
    · simp only [Part.step, Res.bind_eq_ok, Res.ok.injEq] at h
      first
      | (obtain ⟨b, _, rfl⟩ := h; exact ⟨le_refl _, [], by simp⟩)
      | (subst h; split
         · rename_i ht
           simp only [Bool.and_eq_true, decide_eq_true_eq] at ht
           exact ⟨ht.1, [], by simp⟩
         · exact ⟨le_refl _, [], by simp⟩)
      | (repeat' (split at h)
         all_goals (cases h; exact ⟨le_refl _, [], by simp⟩))

theorem Part.step_kept {cfg : Cfg} {k : Name} {D : Nat} (hk : k ≠ []) (hseg : ∀ c, k.getLast? = some c → c.type ≠ 50)
    {s s' : Part} (hr : Part.Reach cfg s) (hp : s.Until k D) {op : Part.Op} (hrecv : ∀ i, op = .recvInterest i → ¬ AsksFor i.name k)
    (h : Part.step cfg s op = .ok s') (hlt : s.now < D) :
    s.now ≤ s'.now ∧ ∃ ext, s'.log = s.log ++ ext ∧ (s'.Until k D ∨ (∃ d ∈ dataOf ext, k <+: d.name) ∨
      ∃ p seq bf t diff, op = .publishName p seq ∧ SyncFields cfg k bf t ∧ Table.diff cfg.fuel s'.base.iblt t = .ok diff ∧
        diff.canDecode = false) := by
  have hparked := Part.reach_parked hr
  obtain ⟨e, he, hd⟩ := id hp
  have same : ∀ {s'' : Part}, s''.pending.find k = s.pending.find k → s''.Until k D := fun hf => ⟨e, hf.trans he, hd⟩
  cases op with
  | addUserNode p => simp only [Part.step, Res.ok.injEq] at h; subst h; exact ⟨le_refl _, [], by simp, .inl (same rfl)⟩
  | removeUserNode p =>
    simp only [Part.step, Res.bind_eq_ok, Res.ok.injEq] at h
    obtain ⟨b, _, rfl⟩ := h
    exact ⟨le_refl _, [], by simp, .inl (same rfl)⟩
  | publishName p seq =>
    have hnow := (Part.publishName_shrink h).1
    refine ⟨by rw [hnow], ?_⟩
    cases hreg : s.base.getSeqNo p with
    | none =>
      simp only [Part.step, Part.publishName] at h
      unfold Base.getSeqNo at hreg
      rw [hreg] at h
      cases h
      exact ⟨[], by simp, .inl hp⟩
    | some x0 =>
      obtain ⟨x, ds, _, hserved, hlog⟩ := c42_publish_serves cfg s s' hr p seq (by rw [hreg]; rfl) h
      refine ⟨ds.map Out.data, hlog, ?_⟩
      rw [dataOf_map]
      rcases served_stays hserved (NMap.mem_of_find (m := s.pending) he) hseg hk with h1 | h1 | ⟨diff, h1, h2⟩
      · exact .inl ⟨e, NMap.find_of_mem (Part.reach_parked (hr.next h)).sorted h1, hd⟩
      · exact .inr (.inl h1)
      · exact .inr (.inr ⟨p, seq, e.bf, e.iblt, diff, rfl, hparked.fields k e he, h1, h2⟩)
  | recvInterest i =>
    simp only [Part.step] at h
    split at h
    · have h0 := Part.onHelloInterest_pending h
      refine ⟨by rw [Part.onHelloInterest_now h], ?_⟩
      obtain ⟨ext, hx⟩ := Part.onHelloInterest_log h
      exact ⟨ext, hx, .inl (same (by rw [h0]))⟩
    · split at h
      · rename_i hpre
        have hpre := List.isPrefixOf_iff_prefix.mp hpre
        refine ⟨by rw [Part.onSyncInterest_now hpre h], ?_⟩
        rcases Part.onSyncInterest_cases' hpre h with ⟨d, _, rfl⟩ | ⟨_, rfl | ⟨key, bf, iblt, hf, hka, h3⟩⟩
        · exact ⟨_, rfl, .inl (same rfl)⟩
        · exact ⟨[], by simp, .inl hp⟩
        · obtain ⟨diff, _, ⟨_, d, _, rfl⟩ | ⟨_, content, _, ⟨_, c, r, _, _, rfl⟩ | ⟨_, _, rfl⟩⟩⟩ := Part.onSyncParsed_ok h3
          · exact ⟨_, rfl, .inl (same rfl)⟩
          · exact ⟨_, rfl, .inl (same rfl)⟩
          · refine ⟨[], by simp, .inl (same ?_)⟩
            simp only [NMap.find_set]
            rw [if_neg]
            rintro rfl
            exact hrecv i rfl hka
      · cases h; exact ⟨le_refl _, [], by simp, .inl hp⟩
  | tick t =>
    simp only [Part.step, Res.ok.injEq] at h
    subst h
    split
    · rename_i ht
      simp only [Bool.and_eq_true, decide_eq_true_eq] at ht
      exact ⟨ht.1, [], by simp, .inl (same rfl)⟩
    · exact ⟨le_refl _, [], by simp, .inl hp⟩
  | expire m =>
    simp only [Part.step] at h
    split at h
    · rename_i e0 hm
      split at h
      · rename_i d0 hd0
        split at h
        · rename_i hle
          simp only [Res.ok.injEq] at h
          subst h
          refine ⟨le_refl _, [], by simp, .inl (same ?_)⟩
          obtain ⟨ops, hops⟩ := hr
          obtain ⟨pre, i, post, s1, _, _, ha, hx, _⟩ := Part.park_origin ops hops m e0 hm
          have hmk : m ≠ k := by
            rintro rfl
            rw [hm] at he
            cases he
            have := hd d0 hd0
            omega
          simp only [NMap.find_erase, NMap.find_set]
          rw [if_neg, if_neg hmk]
          intro hx'
          rw [← hx, hx'] at ha
          exact hmk (asksFor_key (hparked.fields k e he) (hparked.fields m e0 hm) ha).symm
        · cases h; exact ⟨le_refl _, [], by simp, .inl hp⟩
      · cases h; exact ⟨le_refl _, [], by simp, .inl hp⟩
    · cases h; exact ⟨le_refl _, [], by simp, .inl hp⟩
  | fireStore => simp only [Part.step, Res.ok.injEq] at h; subst h; exact ⟨le_refl _, [], by simp, .inl (same rfl)⟩

theorem Part.run_kept {cfg : Cfg} {k : Name} {D : Nat} (hk : k ≠ []) (hseg : ∀ c, k.getLast? = some c → c.type ≠ 50)
    (ops : List Part.Op) : ∀ {s s' : Part}, Part.Reach cfg s → s.Until k D →
    (∀ i, Part.Op.recvInterest i ∈ ops → ¬ AsksFor i.name k) → Part.run cfg s ops = .ok s' → s'.now < D →
    s.now ≤ s'.now ∧ Part.Reach cfg s' ∧ (Outgrown cfg s ops k ∨ ∃ ext, s'.log = s.log ++ ext ∧
      (s'.Until k D ∨ ∃ d ∈ dataOf ext, k <+: d.name)) := by
  intro s s' hr hp hrecv h hlt
  induction ops using List.reverseRecOn generalizing s' with
  | nil =>
    simp only [Part.run, foldRes, Res.ok.injEq] at h
    subst h
    exact ⟨le_refl _, hr, .inr ⟨[], by simp, .inl hp⟩⟩
  | append_singleton ops op ih =>
    unfold Part.run at h
    rw [foldRes_append] at h
    simp only [Res.bind_eq_ok, foldRes, Res.ok.injEq] at h
    obtain ⟨s1, h1, s2, h2, rfl⟩ := h
    have hmono : s1.now ≤ s2.now := (Part.step_grows (hr.more h1) h2).1
    obtain ⟨hle, hr1, h3⟩ := ih (fun i hi => hrecv i (by simp [hi])) h1 (by omega)
    refine ⟨by omega, hr1.next h2, ?_⟩
    rcases h3 with ⟨a, p, seq, b, sa, sb, bf, t, diff, ha, hx⟩ | ⟨ext, e1, hu | ⟨d, hd, hkd⟩⟩
    · exact .inl ⟨a, p, seq, b ++ [op], sa, sb, bf, t, diff, by rw [ha]; simp, hx⟩
    · obtain ⟨_, ext', e2, h4 | ⟨d, hd, hkd⟩ | ⟨p, seq, bf, t, diff, rfl, h5, h6, h7⟩⟩ :=
        Part.step_kept hk hseg hr1 hu (fun i hi => hrecv i (by simp [hi])) h2 (by omega)
      · exact .inr ⟨ext ++ ext', by rw [e2, e1, List.append_assoc], .inl h4⟩
      · exact .inr ⟨ext ++ ext', by rw [e2, e1, List.append_assoc], .inr ⟨d, by
          rw [dataOf_append]; exact List.mem_append_right _ hd, hkd⟩⟩
      · exact .inl ⟨ops, p, seq, [], s1, s2, bf, t, diff, rfl, h1, h2, h5, h6, h7⟩
    · obtain ⟨_, ext', e2⟩ := Part.step_grows hr1 h2
      exact .inr ⟨ext ++ ext', by rw [e2, e1, List.append_assoc], .inr ⟨d, by
        rw [dataOf_append]; exact List.mem_append_left _ hd, hkd⟩⟩

/-- C72 for partial sync: a sync Interest asking with the fields in `k` that is parked (that is, not answered when it is
received) stays parked for its lifetime, unless the producer sends Data for it before, or a publication makes
the difference to its IBF undecodable (or it is received again). -/
theorem c72_partial_producer (cfg : Cfg) (s1 s2 s : Part) (hr : Part.Reach cfg s1) (i : Interest) (k : Name)
    (h : Part.step cfg s1 (.recvInterest i) = .ok s2) (hk : AsksFor i.name k) (hpark : k ∈ s2.pending.keys)
    (hquiet : s2.log = s1.log) (hseg : ∀ c, i.name.getLast? = some c → c.type ≠ 50)
    (hseg' : ∀ c, k.getLast? = some c → c.type ≠ 50)
    (ops : List Part.Op) (hrun : Part.run cfg s2 ops = .ok s) (hrecv : ∀ i', Part.Op.recvInterest i' ∈ ops → ¬ AsksFor i'.name k)
    (htime : s.now < s1.now + i.lifetime) :
    k ∈ s.pending.keys ∨ (∃ ext, s.log = s2.log ++ ext ∧ ∃ d ∈ dataOf ext, k <+: d.name) ∨ Outgrown cfg s2 ops k := by
  have hr2 := hr.next h
  rw [NMap.mem_keys, Option.isSome_iff_exists] at hpark
  obtain ⟨e, he⟩ := hpark
  have hf := (Part.reach_parked hr2).fields k e he
  have hp : (cfg.syncPrefix ++ [SYNC]) <+: i.name := by
    obtain ⟨c1, c2, c3, c4, _, _, rfl, _⟩ := hf
    rcases hk with hk | ⟨v, g, hk⟩
    · rw [hk]; exact ⟨[c1, c2, c3, c4], by simp⟩
    · rw [hk]; exact ⟨[c1, c2, c3, c4, v, g], by simp⟩
  have hne : k ≠ [] := by
    obtain ⟨c1, c2, c3, c4, _, _, rfl, _⟩ := hf
    simp
  rw [step_sync hp] at h
  have hst : s1.pub.replyFromStore i.name = none := by
    rcases Part.onSyncInterest_cases' hp h with ⟨d, _, rfl⟩ | ⟨h0, _⟩
    · simp [Part.emit] at hquiet
    · exact h0
  rw [Part.onSyncInterest_wf hst hf hk] at h
  have hu : s2.Until k (s1.now + i.lifetime) := by
    obtain ⟨diff, _, ⟨_, d, _, rfl⟩ | ⟨_, content, _, ⟨_, c, r, _, hpub, rfl⟩ | ⟨_, _, rfl⟩⟩⟩ := Part.onSyncParsed_ok h
    · simp [Part.emit] at hquiet
    · exfalso
      obtain ⟨v, segs, hs, hsent⟩ := publish_sent hpub
      obtain ⟨d, ds, rfl⟩ := List.exists_cons_of_ne_nil (List.ne_nil_of_length_pos hs.nonempty)
      have hin : i.name ≠ [] := by
        rintro h0
        rw [h0] at hp
        simp at hp
      obtain ⟨l, hl⟩ : ∃ l, i.name.getLast? = some l := ⟨_, List.getLast?_eq_some_getLast hin⟩
      rw [hsent] at hquiet
      simp [asked, hl, hseg l hl] at hquiet
    · refine ⟨_, (NMap.find_set _ _ _ _).trans (if_pos rfl), fun d hd => ?_⟩
      simp only [Part.renewed, Option.some.injEq] at hd
      omega
  obtain ⟨_, _, h1 | ⟨ext, e1, ⟨e', he', _⟩ | ⟨d, hd, hkd⟩⟩⟩ := Part.run_kept hne hseg' ops hr2 hu hrecv hrun htime
  · exact .inr (.inr h1)
  · left
    rw [NMap.mem_keys, he']
    rfl
  · exact .inr (.inl ⟨ext, e1, d, hd, hkd⟩)

set_option synthInstance.maxSize 1024 in
/-- Non-vacuity for `c72_partial_producer`: parked at 100 for 1000 ms without Data, still parked at 900 after
another Interest came and was answered. -/
example : (partRun [.addUserNode pA, .tick 100]).get?.bind (fun s1 : Part =>
      (Part.step sampleCfg s1 (.recvInterest noneInterest)).get?.bind (fun s2 : Part =>
        (Part.run sampleCfg s2 [.recvInterest allInterest, .tick 600, .publishName pA none, .expire allInterest.name, .tick 900]).get?.map
          (fun s : Part => (s1.pending.keys, s2.pending.keys, decide (s2.log = s1.log), s.pending.keys, s.now, (dataOf s.log).length))))
    = some ([], [noneInterest.name], true, [noneInterest.name], 900, 1) := by decide +kernel

end PSync
