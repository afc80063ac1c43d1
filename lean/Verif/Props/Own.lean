import Verif.Props.Mention
/-!
C122: a full-sync node is told nothing of what it published itself.
-/
namespace PSync
open Spec Base

/-! ### Where updates come from -/

/-- Without a merge nothing is reported. -/
theorem Micros.quiet {ρ : Rules} {v v' : View} (h : Micros ρ v v') (hρ : ∀ us, ¬ ρ.merge us) :
    ∃ l, v'.log = v.log ++ l ∧ ∀ us, Out.update us ∉ l := by
  induction h with
  | refl => exact ⟨[], by simp, by simp⟩
  | tail _ h ih =>
    obtain ⟨l, h1, h2⟩ := ih
    have more : ∀ l' : List Out, (∀ us, Out.update us ∉ l') → ∃ k, (v.log ++ l) ++ l' = v.log ++ k ∧ ∀ us, Out.update us ∉ k :=
      fun l' hl' => ⟨l ++ l', by rw [List.append_assoc], fun us hm => (List.mem_append.mp hm).elim (h2 us) (hl' us)⟩
    cases h with
    | merge us b' hm _ _ => exact absurd hm (hρ us)
    | interest n lt _ => simp only [h1]; exact more _ (by simp)
    | stored n d _ => simp only [h1]; exact more _ (by simp)
    | nack d _ => simp only [h1]; exact more _ (by simp)
    | data now iname dname buf fr r _ _ _ => simp only [h1]; exact more _ (by simp)
    | _ => exact ⟨l, h1, h2⟩

/-- What an event reports is what the received names add to the table. -/
theorem Full.step_news {cfg : Cfg} {s s' : Full} (hs : s.base.Inv) {op : Op} (h : step cfg s op = .ok s') :
    ∃ l, s'.log = s.log ++ l ∧ ∀ us, Out.update us ∈ l → ∃ buf acts ns r, op = .complete buf acts ∧ decodeReply cfg buf = some ns ∧
      merge s.incomingFace s.base ns [] = .ok r ∧ us = r.1 := by
  by_cases hc : ∃ buf acts, op = .complete buf acts
  · obtain ⟨buf, acts, rfl⟩ := hc
    simp only [step] at h
    split at h
    · split at h
      · rcases onSyncData_cases (s := s.stopFetcher) hs h with ⟨_, rfl⟩ | ⟨ns, r, h1, h2, hinv, ⟨_, _, rfl⟩ | ⟨_, s1, h3, hinv1, _, h4⟩⟩
        · exact ⟨[], by simp [stopFetcher, deletePending], by simp⟩
        · exact ⟨[], by simp [stopFetcher, deletePending], by simp⟩
        · obtain ⟨l1, e1, f1⟩ := (calls_micro (M := fun _ => False) (s := ({ s.stopFetcher.deletePending _ with base := r.2 } : Full).emit
            (.update r.1)) hinv h3).quiet (fun _ hx => hx)
          obtain ⟨l2, e2, f2⟩ := (processWaiting_micro (R := fun _ => False) (L := fun _ _ => False) (M := fun _ => False) (s := { s1 with
            sched := some (s1.now + cfg.jitter s1.draws, .renew), draws := s1.draws + 1, waitOut := false }) hinv1 h4).quiet (fun _ hx => hx)
          have e1 : s1.log = (s.log ++ [.update r.1]) ++ l1 := e1
          have e2 : s'.log = s1.log ++ l2 := e2
          refine ⟨.update r.1 :: (l1 ++ l2), by rw [e2, e1]; simp, fun us hu => ?_⟩
          rcases List.mem_cons.mp hu with hu | hu
          · cases hu
            exact ⟨buf, acts, ns, r, rfl, h1, h2, rfl⟩
          · exact ((List.mem_append.mp hu).elim (f1 us) (f2 us)).elim
      · cases h; exact ⟨[], by simp, by simp⟩
    · cases h; exact ⟨[], by simp, by simp⟩
  · obtain ⟨l, h1, h2⟩ := (step_micro hs h).quiet (fun us ⟨buf, acts, e, _⟩ => hc ⟨buf, acts, e⟩)
    exact ⟨l, h1, fun us hu => absurd hu (h2 us)⟩

/-- Every range that is merged begins above what was known. -/
theorem MergeRel.beyond {b b' : Base} {us : List MissingDataInfo} (h : MergeRel b us b') :
    ∀ u ∈ us, ∀ x, b.prefixes.find u.pfx = some x → x < u.lowSeq ∧ u.lowSeq ≤ u.highSeq := by
  induction h with
  | nil b => exact fun u hu => (by cases hu)
  | newer p q face hq hnew h1 _ ih =>
    rename_i b b1 b2 us _
    have hf := Full.merge_step_find h1
    intro u hu x hx
    rcases List.mem_cons.mp hu with rfl | hu
    · unfold Full.isNewer at hnew
      simp only at hx
      rw [hx] at hnew
      simp only [decide_eq_true_eq] at hnew
      simp only [hx, Option.getD_some]
      rw [Nat.mod_eq_of_lt (by omega)]
      omega
    · have := ih u hu
      rw [hf] at this
      split at this
      · rename_i he
        rw [hx] at this
        have := this _ rfl
        simp only [Option.getD_some] at this
        omega
      · exact this x hx

/-! ### What a node published itself -/

/-- A node never falls behind what it published itself for a prefix that it does not remove. -/
theorem Micro.ownMadeOf {ρ : Rules} {v v' : View} (h : Micro ρ v v') {p : Name} (hrem : ¬ ρ.remove p)
    (hm : ∀ q, (p, q) ∈ v.made → ∃ x, v.base.prefixes.find p = some x ∧ q ≤ x) :
    ∀ q, (p, q) ∈ v'.made → ∃ x, v'.base.prefixes.find p = some x ∧ q ≤ x := by
  have keep : ∀ q, (p, q) ∈ v.made → ∃ x, v'.base.prefixes.find p = some x ∧ q ≤ x := by
    intro q hq
    obtain ⟨x, h1, h2⟩ := hm q hq
    obtain ⟨y, h3, h4⟩ := h.steps.mono_seq hrem h1
    exact ⟨y, h3, by omega⟩
  cases h with
  | publish p' q' b' hp hq hreg h =>
    intro q he
    rcases List.mem_append.mp he with he | he
    · exact keep q he
    · cases List.mem_singleton.mp he
      obtain ⟨x, hx⟩ := Option.isSome_iff_exists.mp hreg
      exact ⟨max x q', by simp only [find_updateSeqNo h, if_pos, hx, Option.map_some], by omega⟩
  | _ => exact keep

theorem Micros.ownMadeOf {ρ : Rules} {v v' : View} (h : Micros ρ v v') {p : Name} (hrem : ¬ ρ.remove p)
    (hm : ∀ q, (p, q) ∈ v.made → ∃ x, v.base.prefixes.find p = some x ∧ q ≤ x) :
    ∀ q, (p, q) ∈ v'.made → ∃ x, v'.base.prefixes.find p = some x ∧ q ≤ x := by
  induction h with
  | refl => exact hm
  | tail _ h ih => exact h.ownMadeOf hrem ih

theorem Full.run_ownMade {cfg : Cfg} {s0 s : Full} (h0 : Full.init cfg = .ok s0) {p : Name} {ops : List Op} (h : Full.run cfg s0 ops = .ok s)
    (hrem : ∀ op ∈ ops, ¬ op.Removes p) : s.base.Inv ∧ ∀ q, (p, q) ∈ s.made → ∃ x, s.base.prefixes.find p = some x ∧ q ≤ x :=
  foldRes_inv (P := fun s : Full => s.base.Inv ∧ ∀ q, (p, q) ∈ s.made → ∃ x, s.base.prefixes.find p = some x ∧ q ≤ x) ops
    (fun _ op _ hop ⟨i1, i2⟩ hst => ⟨(Full.step_steps hst).inv i1, (step_micro i1 hst).ownMadeOf (hrem op hop) i2⟩)
    ⟨Full.reach_inv ⟨s0, [], h0, rfl⟩, fun q hq => by rw [Full.init_made h0] at hq; cases hq⟩ h

theorem Full.news_beyond {cfg : Cfg} {s s' : Full} (hs : s.base.Inv) {op : Op} (h : step cfg s op = .ok s') {us : List MissingDataInfo}
    (hu : Out.update us ∈ newOutput s s') {u : MissingDataInfo} (hm : u ∈ us) {x : Nat} (hx : s.base.prefixes.find u.pfx = some x) :
    x < u.lowSeq ∧ u.lowSeq ≤ u.highSeq := by
  obtain ⟨l, h1, h2⟩ := step_news hs h
  unfold newOutput at hu
  rw [h1, List.drop_left] at hu
  obtain ⟨buf, acts, ns, r, _, _, h3, rfl⟩ := h2 us hu
  obtain ⟨us', h4, h5, _⟩ := merge_rel _ h3
  rw [List.nil_append] at h4
  exact (h4 ▸ h5).beyond u hm x hx

/-- C122 for one node: whatever replies it receives, even forged ones, every range reported for a prefix lies above all numbers that the
node itself has published for it, as long as the application does not remove the prefix. -/
theorem c122_beyond_own (cfg : Cfg) (s0 s s' : Full) (ops : List Full.Op) (op : Full.Op) (h0 : Full.init cfg = .ok s0)
    (h : Full.run cfg s0 ops = .ok s) (hst : Full.step cfg s op = .ok s') (us : List MissingDataInfo)
    (hu : Out.update us ∈ newOutput s s') (u : MissingDataInfo) (hm : u ∈ us) (hrem : ∀ op ∈ ops, ¬ op.Removes u.pfx)
    (q : Nat) (hq : (u.pfx, q) ∈ s.made) : q < u.lowSeq ∧ u.lowSeq ≤ u.highSeq := by
  obtain ⟨hi, ho⟩ := Full.run_ownMade h0 h hrem
  obtain ⟨x, h1, h2⟩ := ho q hq
  have := Full.news_beyond hi hst hu hm h1
  omega

section
variable {ι : Type} {cfg : ι → Cfg} {g : Nat → ι → Full} {who : Nat → ι} {what : Nat → Full.Op} {len : Nat}

theorem Spec.GRun.ownMade (h : GRun cfg g who what len) {i : ι} {p : Name} (hrem : ∀ k < len, who k = i → ¬ (what k).Removes p) :
    ∀ n ≤ len, ∀ q, (p, q) ∈ (g n i).made → ∃ x, (g n i).base.prefixes.find p = some x ∧ q ≤ x := by
  intro n
  induction n with
  | zero => intro _ q hq; rw [Full.init_made (h.init i)] at hq; cases hq
  | succ n ih =>
    intro hn
    have hst := h.step n (by omega)
    by_cases hi : i = who n
    · have hx := hst.step
      rw [← hi] at hx
      exact (Full.step_micro (Full.reach_inv (h.reach (n := n) (by omega) i)) hx).ownMadeOf (hrem n (by omega) hi.symm) (ih (by omega))
    · rw [hst.others i hi]
      exact ih (by omega)

/-- What is received in a group has been published before. -/
theorem Spec.GRun.received (hg : IsGroup cfg) (h : GRun cfg g who what len) (hs : Sane cfg (g len)) {n : Nat} (hn : n < len) {buf : Bytes}
    {acts : List Full.Call} (hop : what n = .complete buf acts) {ns : List Name} (hdec : Full.decodeReply (cfg (who n)) buf = some ns) :
    ∀ x ∈ ns, ∀ p q, announced x = some (p, q) → PublishedBy (g n) p q := by
  intro x hx p q ha
  obtain ⟨m, lt, segs, h1, h2⟩ := (h.step n hn).honest buf acts hop
  have hsn := h.sane hs (n := n) (by omega)
  obtain ⟨j, k, e, h3, _, rfl⟩ := fetched_reply hg hsn (fun i => h.reach (by omega) i) h1 h2
  have he := List.mem_of_getElem? h3
  obtain ⟨content, _, _, _, h4, h5⟩ := carries_decode (c' := cfg (who n)) (hg.wf j).content_lossless
    (hg.same j (who n)).contentCodec (fun p q ⟨j', hj'⟩ => hsn.names j' _ hj') (hsn.buffers j e he).2
    ((h.sourced hg hs (n := n) (by omega) j).replies e he)
  rw [hdec, Option.some.injEq] at h4
  subst h4
  obtain ⟨p', q', h6, h7, rfl⟩ := h5 x hx
  rw [announced_appendNumber p' q' h7, Option.some.injEq, Prod.mk.injEq] at ha
  rw [← ha.1, ← ha.2]
  exact h6

/-- C122 in a group: what a node is told about a prefix that it does not remove, another node has published. -/
theorem c122_by_others (hg : IsGroup cfg) (h : GRun cfg g who what len) (hs : Sane cfg (g len)) (i : ι) (p : Name)
    (hrem : ∀ k < len, who k = i → ¬ (what k).Removes p)
    (n : Nat) (hn : n ≤ len) (us : List MissingDataInfo) (hu : Out.update us ∈ (g n i).log) (u : MissingDataInfo) (hm : u ∈ us)
    (hp : u.pfx = p) : ∃ j, j ≠ i ∧ (p, u.highSeq) ∈ (g n j).made := by
  have lift : ∀ {n}, n < len → (∃ j, j ≠ i ∧ (p, u.highSeq) ∈ (g n j).made) → ∃ j, j ≠ i ∧ (p, u.highSeq) ∈ (g (n + 1) j).made :=
    fun hn ⟨j, h1, h2⟩ => ⟨j, h1, (h.made (by omega) (by omega) j).subset h2⟩
  induction n with
  | zero =>
    exfalso
    have h1 : Micros (Full.rules (cfg i) Full.knownP (fun _ => False) (fun _ _ => False) (fun _ => False))
        ⟨Base.new (cfg i), SegPub.empty, [], [], [], 0⟩ (g 0 i).view :=
      Full.sendSyncInterest_micro (cfg := cfg i)
        (ρ := Full.rules (cfg i) Full.knownP (fun _ => False) (fun _ _ => False) (fun _ => False)) (fun b n hn => ⟨hn, rfl⟩) (h.init i)
    have := h1.unreported (fun _ hx => hx) hu
    simp at this
  | succ n ih =>
    have hst := h.step n (by omega)
    by_cases hi : i = who n
    · have hx := hst.step
      rw [← hi] at hx
      have hinv := Full.reach_inv (h.reach (n := n) (by omega) i)
      obtain ⟨l, h1, h2⟩ := Full.step_news hinv hx
      have hu' := hu
      rw [h1] at hu'
      rcases List.mem_append.mp hu' with hu' | hu'
      · exact lift (by omega) (ih (by omega) hu')
      · subst hp
        obtain ⟨buf, acts, ns, r, hop, hdec, hmerge, rfl⟩ := h2 us hu'
        obtain ⟨us', e1, hsub⟩ := Full.merge_sublist _ hmerge
        rw [List.nil_append] at e1
        have hin := hsub.subset (List.mem_map.mpr ⟨u, e1 ▸ hm, rfl⟩)
        obtain ⟨x, hx1, hx2⟩ := List.mem_filterMap.mp hin
        rw [hi] at hdec
        obtain ⟨j, hj⟩ := h.received hg hs (by omega) hop hdec x hx1 _ _ hx2
        refine lift (by omega) ⟨j, ?_, hj⟩
        rintro rfl
        obtain ⟨y, hy1, hy2⟩ := h.ownMade hrem n (by omega) _ hj
        obtain ⟨us'', e2, hmr, _⟩ := Full.merge_rel _ hmerge
        rw [List.nil_append] at e2
        have := (e2 ▸ hmr).beyond u hm y hy1
        omega
    · rw [hst.others i hi] at hu
      exact lift (by omega) (ih (by omega) hu)

/-- C122 in a group: the only publisher of a prefix, which does not remove it, is never told anything about it. -/
theorem c122_own (hg : IsGroup cfg) (h : GRun cfg g who what len) (hs : Sane cfg (g len)) (i : ι) (p : Name)
    (honly : ∀ k < len, who k ≠ i → ¬ (what k).Publishes p) (hrem : ∀ k < len, who k = i → ¬ (what k).Removes p)
    (n : Nat) (hn : n ≤ len) (us : List MissingDataInfo) (hu : Out.update us ∈ (g n i).log) (u : MissingDataInfo) (hm : u ∈ us) :
    u.pfx ≠ p := by
  intro hp
  obtain ⟨j, hne, hj⟩ := c122_by_others hg h hs i p hrem n hn us hu u hm hp
  obtain ⟨k, hk, hw, hpub⟩ := h.publisher hn hj
  exact honly k (by omega) (by rw [hw]; exact hne) hpub.publishes

end

/-- Non-vacuity for C122: the application has published /a/3; a (forged) reply with /a/2 and /a/7 is reported as 4 to 7. -/
example : (Res.bind (Full.init sampleCfg) fun s => Full.run sampleCfg s [.call (.addUserNode pA), .call (.publishName pA (some 3))]).get?.bind
      (fun s => (Full.step sampleCfg s (.complete (encodeNames [pA.appendNumber 2, pA.appendNumber 7]) [])).get?.map fun s' =>
        (s.made, (newOutput s s').any (fun o => decide (o = .update [⟨pA, 4, 7, 0⟩])))) = some ([(pA, 3)], true) := by decide +kernel

/-- C122 needs that the prefix is not removed: otherwise the own number 1 is reported when it comes back. -/
example : (Res.bind (Full.init sampleCfg) fun s => Full.run sampleCfg s
      [.call (.addUserNode pA), .call (.publishName pA (some 1)), .call (.removeUserNode pA)]).get?.bind
      (fun s => (Full.step sampleCfg s (.complete (encodeNames [pA.appendNumber 1]) [])).get?.map fun s' =>
        (s.made, (newOutput s s').any (fun o => decide (o = .update [⟨pA, 1, 1, 0⟩])))) = some ([(pA, 1)], true) := by decide +kernel

theorem duo_echo : (grun duoCfg duoEvents).map (fun sts =>
    decide ((gat duoCfg sts 8 0).made = [(pA, 1)]) && decide ((gat duoCfg sts 8 1).made = [(pB, 3)]) &&
    decide ((gat duoCfg sts 8 0).replies = [(emptyInterest.name, duoReply0.content, 1000)]) &&
    decide ((gat duoCfg sts 8 1).replies = [(emptyInterest.name, duoReply1.content, 1000)]) &&
    (gat duoCfg sts 8 0).log.any (fun o => decide (o = .update [⟨pB, 1, 3, 0⟩])) &&
    decide (pA.appendNumber 1 ∈ namesIn sampleCfg duoReply1.content)) = some true := by decide +kernel

/-- Non-vacuity for C122: node 0, the only publisher of /a, receives a reply of node 1 that lists /a/1 and /b/3; only /b is reported. -/
example : ∃ (g : Nat → Fin 2 → Full) (who : Nat → Fin 2) (what : Nat → Full.Op), IsGroup duoCfg ∧ GRun duoCfg g who what 8 ∧
    Sane duoCfg (g 8) ∧ (∀ k < 8, who k ≠ 0 → ¬ (what k).Publishes pA) ∧ (∀ k < 8, who k = 0 → ¬ (what k).Removes pA) ∧
    (pA, 1) ∈ (g 8 0).made ∧ (∃ buf, what 7 = .complete buf [] ∧ pA.appendNumber 1 ∈ namesIn sampleCfg buf) ∧
    Out.update [⟨pB, 1, 3, 0⟩] ∈ (g 8 0).log := by
  obtain ⟨sts, h1, h2⟩ := Option.of_map duo_echo
  simp only [Bool.and_eq_true, decide_eq_true_eq, List.any_eq_true] at h2
  obtain ⟨⟨⟨⟨⟨m0, m1⟩, r0⟩, r1⟩, o, ho, rfl⟩, hin⟩ := h2
  refine ⟨gat duoCfg sts, gwho duoEvents 0, gwhat duoEvents, duoCfg_group, grun_sound h1 0, ?_, ?_, fun k _ _ => no_removal (by decide) k pA,
    by rw [m0]; simp, ⟨duoReply1.content, rfl, hin⟩, ho⟩
  · refine sane_duo ?_ ?_ ?_ ?_ (by rw [r0]; decide) (by rw [r1]; decide)
    · rw [m0]; intro e he; rw [List.mem_singleton.mp he]; exact nameOf_valid (by decide)
    · rw [m1]; intro e he; rw [List.mem_singleton.mp he]; exact nameOf_valid (by decide)
    · rw [r0]; intro e he; rw [List.mem_singleton.mp he]; decide
    · rw [r1]; intro e he; rw [List.mem_singleton.mp he]; decide
  · intro k hk hw
    match k, hk with
    | 0, _ => exact absurd rfl hw
    | 1, _ => exact absurd rfl hw
    | 2, _ => simp [gwhat, duoEvents, Full.Op.Publishes, Full.Call.Publishes]
    | 3, _ => simp [gwhat, duoEvents, Full.Op.Publishes, Full.Call.Publishes, pA, pB, nameOf]
    | 4, _ => exact absurd rfl hw
    | 5, _ => simp [gwhat, duoEvents, Full.Op.Publishes]
    | 6, _ => simp [gwhat, duoEvents, Full.Op.Publishes]
    | 7, _ => exact absurd rfl hw

end PSync
