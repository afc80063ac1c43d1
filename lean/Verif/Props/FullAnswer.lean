import Verif.Proofs.Honest
import Verif.Proofs.NoThrow
import Verif.Props.FullTimers
/-!
Properties C33, C34 (full producer), C36, C37.
-/
namespace PSync
open Spec

/-! ### C33 -/

/-- The node answers the Interest at once: from its segment store, or with its complete state. -/
def Spec.AnswersAll (cfg : Cfg) (s : Full) (i : Interest) : Prop :=
  ∃ s' ext d, Full.step cfg s (.recvInterest i) = .ok s' ∧ s'.log = s.log ++ ext ∧ dataOf ext = [d] ∧
    (s.pub.replyFromStore i.name = some d ∨
     ∃ content, FirstOfReply cfg i.name content d ∧ ∀ n, n ∈ content ↔ IsLive s.base.getSeqNo n)

theorem diff_self_decodes {fuel : Nat} {t : Table} {d : IBLTDiff} (h : Table.diff fuel t t = .ok d) : d.canDecode = true := by
  cases fuel with
  | zero =>
    unfold Table.diff at h
    simp only [Res.bind_eq_ok] at h
    obtain ⟨_, _, _, h2, _⟩ := h
    simp [peelLoop] at h2
  | succ f => rw [diff_self, Res.ok.injEq] at h; subst h; rfl

/-- The reply to an Interest whose IBF does not decode. -/
theorem answersAll_base {cfg : Cfg} (hwf : cfg.WF) (he : 0 < cfg.expected) {s : Full} {b : Base} (hs : Full.Reach cfg s)
    (hb : Base.Steps (fun _ => True) (Base.new cfg) b) {i : Interest} (hi : Full.syncName cfg b = .ok i.name) {d : IBLTDiff}
    (hd : Table.diff cfg.fuel s.base.iblt b.iblt = .ok d) (hdec : d.canDecode = false)
    (h1 : b.numOwn ≤ s.base.numOwn) (h2 : ¬ (s.base.numOwn = b.numOwn ∧ d.positive.length = 0 ∧ d.negative.length > 0))
    (h3 : ∃ p x, s.base.prefixes.find p = some x ∧ x ≠ 0) : Spec.AnswersAll cfg s i := by
  have hsi := Full.reach_inv hs
  have hri := hb.inv (Base.inv_new cfg)
  have hrr : b.Ranged cfg.expected := hb.ranged he (Base.ranged_new cfg)
  obtain ⟨c, hname, _, _⟩ := honest_name hrr hwf.iblt_lossless hri.ownLt
  rw [hi, Res.ok.injEq] at hname
  have hne : i.name ≠ [] := by rw [hname]; simp
  have hstep : Full.step cfg s (.recvInterest i) = Full.onSyncInterest cfg s i false := by
    simp only [Full.step]
    rw [if_pos]
    rw [hname]; simp [List.isPrefixOf_iff_prefix]
  unfold Spec.AnswersAll
  cases hst : s.pub.replyFromStore i.name with
  | some d =>
    refine ⟨s.emit (.data d), [.data d], d, ?_, rfl, rfl, Or.inl rfl⟩
    rw [hstep]
    unfold Full.onSyncInterest
    simp only [hst]
  | none =>
    rw [hstep, Full.onSyncInterest_honest hrr hwf.iblt_lossless hri.ownLt hi hst, hd, Res.ok_bind]
    simp only [hdec, Bool.not_false, if_true]
    obtain ⟨s', hs'⟩ := Full.onUndecodable_total hwf (s := s) (t := false) (n := b.numOwn) (d := d) hne
    have hrep : Full.Replied cfg s s' i.name (Full.allContent s.base) 10 := by
      unfold Full.onUndecodable at hs'
      rw [if_neg (by omega), if_neg h2] at hs'
      simp only at hs'
      rw [if_neg] at hs'
      · simp only [Res.bind_eq_ok, Res.ok.injEq] at hs'
        obtain ⟨s1, h4, rfl⟩ := hs'
        obtain ⟨buf, r, is, h2, h3, h4, h5, h6⟩ := Full.sendSyncData_replied h4
        have := Full.markWaiting_view (s1.deletePending i.name) i.name
        simp only [Full.view, View.mk.injEq] at this
        have hrv := this.2.2.2.1
        replace this := And.intro this.1 (And.intro this.2.1 this.2.2.1)
        exact ⟨⟨buf, r, is, h2, h3, this.2.1.trans h4, this.2.2.trans h5, h6.1, hrv.trans h6.2⟩⟩
      · obtain ⟨p, x, hp, hx⟩ := h3
        have := (Full.allContent_live hsi).mpr ⟨p, x, hp, hx, rfl⟩
        intro hemp
        rw [List.isEmpty_iff] at hemp
        rw [hemp] at this
        simp at this
    obtain ⟨ext, d', e1, e2, e3⟩ := hrep.first hwf.content_lossless hne (by
      have : i.name.getLast hne = ⟨8, nniBytes b.numOwn⟩ := by
        simp only [hname]
        rw [List.getLast_append_of_ne_nil _ (by simp)]
        rfl
      rw [this]
      exact (by decide : (8 : Nat) ≠ 50))
    exact ⟨s', ext, d', hs', e1, e2, Or.inr ⟨_, e3, fun n => Full.allContent_live hsi⟩⟩

theorem answersAll_of {cfg : Cfg} (hwf : cfg.WF) (he : 0 < cfg.expected) {s r : Full} (hs : Full.Reach cfg s)
    (hr : Full.Reach cfg r) {i : Interest} (hi : Full.syncName cfg r.base = .ok i.name) {d : IBLTDiff}
    (hd : Table.diff cfg.fuel s.base.iblt r.base.iblt = .ok d) (hdec : d.canDecode = false)
    (h1 : r.base.numOwn ≤ s.base.numOwn) (h2 : ¬ (s.base.numOwn = r.base.numOwn ∧ d.positive.length = 0 ∧ d.negative.length > 0))
    (h3 : ∃ p x, s.base.prefixes.find p = some x ∧ x ≠ 0) : Spec.AnswersAll cfg s i :=
  answersAll_base hwf he hs (Full.reach_steps hr) hi hd hdec h1 h2 h3

/-- C33: of two nodes whose IBFs do not decode against each other, at least one answers the sync Interest
of the other at once, with a stored reply to it or with its complete state. -/
theorem c33_no_deadlock (cfg : Cfg) (hwf : cfg.WF) (he : 0 < cfg.expected) (s r : Full)
    (hs : Full.Reach cfg s) (hr : Full.Reach cfg r)
    (hsr : ∀ p q, BaseEv.remove p q ∉ s.base.hist) (hrr : ∀ p q, BaseEv.remove p q ∉ r.base.hist)
    (hss : sumSeq s.base.prefixes < 2 ^ 64) (hrs : sumSeq r.base.prefixes < 2 ^ 64)
    (i j : Interest) (hi : Full.syncName cfg s.base = .ok i.name) (hj : Full.syncName cfg r.base = .ok j.name)
    (d d' : IBLTDiff) (hd : Table.diff cfg.fuel s.base.iblt r.base.iblt = .ok d)
    (hd' : Table.diff cfg.fuel r.base.iblt s.base.iblt = .ok d') (hdec : d.canDecode = false ∨ d'.canDecode = false) :
    Spec.AnswersAll cfg s j ∨ Spec.AnswersAll cfg r i := by
  have own : ∀ s : Full, Full.Reach cfg s → (∀ p q, BaseEv.remove p q ∉ s.base.hist) → sumSeq s.base.prefixes < 2 ^ 64 →
      s.base.numOwn = sumSeq s.base.prefixes := by
    intro s hs hsr hss
    have hsi := Full.reach_inv hs
    have h0 : sumRemoved s.base.hist = 0 := by
      have : ∀ h : List BaseEv, (∀ p q, BaseEv.remove p q ∉ h) → sumRemoved h = 0 := by
        intro h
        induction h with
        | nil => intro _; rfl
        | cons e h ih =>
          intro hm
          have := ih (fun p q hq => hm p q (List.mem_cons_of_mem _ hq))
          cases e with
          | update => exact this
          | remove p q => exact absurd (List.mem_cons_self ..) (hm p q)
      exact this _ hsr
    have h1 := hsi.own
    rw [h0, Nat.add_zero, Nat.mod_eq_of_lt hsi.ownLt, Nat.mod_eq_of_lt (show _ < U64 from hss)] at h1
    exact h1
  have os := own s hs hsr hss
  have or := own r hr hrr hrs
  have hlen : s.base.iblt.length = 3 * buckets cfg.expected := ((Full.reach_steps hs).ranged he (Base.ranged_new cfg)).1
  obtain ⟨e1, e2, e3⟩ := c06_antisymmetric cfg.expected he _ _ hlen _ _ _ hd hd'
  have hdec : d.canDecode = false := by rcases hdec with h | h <;> simp_all
  have hsi := Full.reach_inv hs
  have hri := Full.reach_inv hr
  have live : ∀ s : Full, Full.Reach cfg s → s.base.numOwn = sumSeq s.base.prefixes → s.base.numOwn ≠ 0 →
      ∃ p x, s.base.prefixes.find p = some x ∧ x ≠ 0 :=
    fun s hs h h0 => Base.find_of_sumSeq (Full.reach_inv hs).sorted (h ▸ h0)
  rcases Nat.lt_trichotomy s.base.numOwn r.base.numOwn with h | h | h
  · exact Or.inr (answersAll_of hwf he hr hs hi hd' (e1.trans hdec) (by omega) (by omega) (live r hr or (by omega)))
  · -- equal counts
    have h0 : s.base.numOwn ≠ 0 := by
      intro h0
      have quiet : ∀ s : Full, Full.Reach cfg s → (∀ p q, BaseEv.remove p q ∉ s.base.hist) →
          sumSeq s.base.prefixes = 0 → s.base.iblt = Table.new cfg.expected := by
        intro s hs hsr hz
        have hb := (Full.reach_steps hs).busy (Base.busy_new cfg)
        apply hb.1
        by_contra hne
        obtain ⟨p, x, hp, hx⟩ := hb.2 hne hsr
        exact Base.sumSeq_pos hp hx hz
      rw [quiet s hs hsr (by omega), quiet r hr hrr (by omega)] at hd
      rw [diff_self_decodes hd] at hdec
      cases hdec
    by_cases hcase : d.positive.length = 0 ∧ d.negative.length > 0
    · refine Or.inr (answersAll_of hwf he hr hs hi hd' (e1.trans hdec) (by omega) ?_ (live r hr or (by omega)))
      rw [e2, e3]
      omega
    · exact Or.inl (answersAll_of hwf he hs hr hj hd hdec (by omega) (by omega) (live s hs os h0))
  · exact Or.inl (answersAll_of hwf he hs hr hj hd hdec (by omega) (by omega) (live s hs os (by omega)))

/-- Nine prefixes, each published once. -/
def nineOps (x : Byte) : List Full.Op :=
  ([1, 2, 3, 4, 5, 6, 7, 8, 9] : List Byte).flatMap
    (fun k => [.call (.addUserNode (nameOf [x, k])), .call (.publishName (nameOf [x, k]) none)])

set_option synthInstance.maxSize 1024 in
/-- Non-vacuity for C33: two nodes with nine different publications each cannot decode their 6-cell IBFs. -/
example : (Res.bind (Full.init sampleCfg) fun s => Full.run sampleCfg s (nineOps 1)).get?.bind (fun s =>
      (Res.bind (Full.init sampleCfg) fun s => Full.run sampleCfg s (nineOps 2)).get?.map (fun r =>
      (s.base.numOwn, r.base.numOwn, sumSeq s.base.prefixes, (Table.diff 40 s.base.iblt r.base.iblt).get?.map (·.canDecode),
       (Table.diff 40 r.base.iblt s.base.iblt).get?.map (·.canDecode))))
      = some (9, 9, 9, some false, some false) := by decide +kernel

/-! ### C34 -/

/-- The full claim C34: no Interest makes the handler of a reachable producer raise an exception. -/
def Spec.InterestsHarmless : Prop :=
  ∀ cfg : Cfg, cfg.WF → ∀ (i : Interest) (e : Err),
    (∀ s, Full.Reach cfg s → Full.step cfg s (.recvInterest i) ≠ .throw e) ∧
    (∀ s, Part.Reach cfg s → Part.step cfg s (.recvInterest i) ≠ .throw e)

/-- C34 for partial sync: hello and sync Interests of any form raise no exception. -/
theorem c34_partial_producer (cfg : Cfg) (hwf : cfg.WF) (s : Part) (i : Interest) (e : Err) :
    Part.step cfg s (.recvInterest i) ≠ .throw e := by
  have hne : ∀ c : Component, (cfg.syncPrefix ++ [c]).isPrefixOf i.name = true → i.name ≠ [] := by
    intro c h hnil
    rw [hnil, List.isPrefixOf_iff_prefix, List.prefix_nil] at h
    simp at h
  simp only [Part.step]
  split
  · rename_i h
    exact Part.onHelloInterest_noThrow hwf s i (hne _ h) e
  · split
    · rename_i h
      exact Part.onSyncInterest_noThrow hwf s i (hne _ h) e
    · exact Res.NoThrow.ok _ e

/-- C34, partial, for full sync: an Interest whose name has two components after the sync prefix and ends
in a number, or has any other number of components, raises no exception (missing: a last component that
is not a number, `c34_false`). -/
theorem c34_full_partial (cfg : Cfg) (hwf : cfg.WF) (s : Full) (i : Interest) (e : Err)
    (hlast : (i.name.drop cfg.syncPrefix.length).length = 2 →
      ∃ c, i.name.getLast? = some c ∧ (readNni c.value).isSome = true) :
    Full.step cfg s (.recvInterest i) ≠ .throw e := by
  simp only [Full.step]
  split
  · rename_i h
    by_cases hnil : i.name = []
    · -- an empty name has no component after the prefix
      unfold Full.onSyncInterest
      cases s.pub.replyFromStore i.name with
      | some d => exact Res.NoThrow.ok _ e
      | none => simp [hnil]
    · refine Full.onSyncInterest_noThrow hwf s i false hnil (fun h2 => ?_) e
      obtain ⟨c, h3, h4⟩ := hlast h2
      rw [List.getLast?_eq_some_getLast hnil, Option.some.injEq] at h3
      rw [h3]; exact h4
  · exact Res.NoThrow.ok _ e

/-- C34, exactly when a full-sync node raises an exception: the Interest is not answered from the segment store, has two
components after the sync prefix, and the last one is not a number of 1, 2, 4 or 8 bytes.  The exception is that of toNumber. -/
theorem c34_full_exact (cfg : Cfg) (hwf : cfg.WF) (s : Full) (i : Interest) (e : Err) :
    Full.step cfg s (.recvInterest i) = .throw e ↔
      e = .tlv ∧ s.pub.replyFromStore i.name = none ∧ ∃ a b, i.name = cfg.syncPrefix ++ [a, b] ∧ readNni b.value = none := by
  have key : ∀ a b, i.name = cfg.syncPrefix ++ [a, b] → readNni b.value = none → s.pub.replyFromStore i.name = none →
      Full.step cfg s (.recvInterest i) = .throw .tlv := by
    intro a b hi hb hst
    have hp : cfg.syncPrefix.isPrefixOf i.name = true := List.isPrefixOf_iff_prefix.mpr ⟨[a, b], hi.symm⟩
    simp only [Full.step, hp, if_true, Full.onSyncInterest, hst]
    rw [hi, List.drop_left, getFromEnd_two, getFromEnd_last]
    simp [Component.toNumber, hb, Res.ofOption, Res.bind]
  constructor
  · intro h
    have hp : cfg.syncPrefix <+: i.name := by
      rw [← List.isPrefixOf_iff_prefix]
      by_contra hno
      simp only [Full.step, if_neg hno] at h
      cases h
    have hst : s.pub.replyFromStore i.name = none := by
      cases hst : s.pub.replyFromStore i.name with
      | none => rfl
      | some d =>
        simp only [Full.step, List.isPrefixOf_iff_prefix.mpr hp, if_true, Full.onSyncInterest, hst] at h
        cases h
    obtain ⟨t, ht⟩ := hp
    by_cases h2 : ∃ a b, t = [a, b] ∧ readNni b.value = none
    · obtain ⟨a, b, rfl, hb⟩ := h2
      have := key a b ht.symm hb hst
      rw [this] at h
      cases h
      exact ⟨rfl, hst, a, b, ht.symm, hb⟩
    · refine absurd h (c34_full_partial cfg hwf s i e (fun h3 => ?_))
      rw [← ht, List.drop_left, List.length_eq_two] at h3
      obtain ⟨a, b, rfl⟩ := h3
      refine ⟨b, by rw [← ht]; simp, Option.isSome_iff_ne_none.mpr (fun hn => h2 ⟨a, b, rfl, hn⟩)⟩
  · rintro ⟨rfl, hst, a, b, hi, hb⟩
    exact key a b hi hb hst

/-- A sync Interest whose last component has three bytes. -/
def badNumberInterest : Interest :=
  ⟨nameOf [115] ++ [⟨8, List.replicate 72 0⟩, ⟨8, [1, 2, 3]⟩], 1000, 9⟩

/-- C34 is false for full sync: a last component of three bytes raises an exception that the handler does
not catch, in the very first state. -/
theorem c34_false : ¬ Spec.InterestsHarmless := by
  intro h
  have key : ∃ s, Full.init sampleCfg = .ok s ∧
      (match Full.step sampleCfg s (.recvInterest badNumberInterest) with | .throw e => some e | _ => none) = some .tlv :=
    Res.of_get? (by decide +kernel)
  obtain ⟨s, h1, h2⟩ := key
  refine (h sampleCfg sampleCfg_wf badNumberInterest .tlv).1 s ⟨s, [], h1, rfl⟩ ?_
  revert h2
  cases Full.step sampleCfg s (.recvInterest badNumberInterest) <;> simp

/-- Non-vacuity for `c34_full_exact`: in the very first state the three-byte number raises the exception of `toNumber`. -/
example : ∃ s, Full.init sampleCfg = .ok s ∧ Full.step sampleCfg s (.recvInterest badNumberInterest) = .throw .tlv := by
  have key : ∃ s, Full.init sampleCfg = .ok s ∧ s.pub.replyFromStore badNumberInterest.name = none :=
    Res.of_get? (by decide +kernel)
  obtain ⟨s, h1, h2⟩ := key
  exact ⟨s, h1, (c34_full_exact sampleCfg sampleCfg_wf s badNumberInterest .tlv).mpr
    ⟨rfl, h2, ⟨8, List.replicate 72 0⟩, ⟨8, [1, 2, 3]⟩, rfl, by decide⟩⟩

/-- Non-vacuity for C34: the same Interest under /sync is ignored by a partial producer; an Interest with
a garbage IBF is ignored by a full producer. -/
example : (Part.step sampleCfg (Part.init sampleCfg)
    (.recvInterest ⟨nameOf [115] ++ [SYNC, ⟨8, [1, 2, 3]⟩, ⟨8, []⟩, ⟨8, [9]⟩, ⟨8, [1, 2, 3]⟩], 1000, 9⟩)).get?.map (·.log)
    = some [] := by decide +kernel
example : ((Full.init sampleCfg).get?.bind fun s => (Full.step sampleCfg s
    (.recvInterest ⟨nameOf [115] ++ [⟨8, [1, 2, 3]⟩, ⟨8, [7]⟩], 1000, 9⟩)).get?.map (fun s' => (s'.log.length, s'.waiting)))
    = some (1, []) := by decide +kernel

end PSync
