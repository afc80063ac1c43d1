import Verif.Proofs.Fair
import Verif.Proofs.WaitOut
import Verif.Proofs.StoreTime
/-!
Two rounds in which no number changes: a node that was served an old reply waits, and the old reply is gone when it
asks again.
-/
namespace PSync
open Spec Base

theorem Full.Held.rebase {d : Nat} {l : List Out} {s : Full} (h : Full.Held d l s) : Full.Held d s.log s :=
  ⟨h.waits, h.sched, h.idle, [], by simp, by simp⟩

theorem syncName_eq {cfg : Cfg} {b b' : Base} (h1 : b'.iblt = b.iblt) (h2 : b'.numOwn = b.numOwn) :
    Full.syncName cfg b' = Full.syncName cfg b := by
  unfold Full.syncName
  rw [h1, h2]

section
variable {ι : Type} {cfg : ι → Cfg} {g : Nat → ι → Full} {who : Nat → ι} {what : Nat → Full.Op} {len : Nat}

theorem Spec.GRun.time (h : GRun cfg g who what len) {m n : Nat} (hmn : m ≤ n) (hn : n ≤ len) (i : ι) :
    (g m i).now ≤ (g n i).now := by
  induction n, hmn using Nat.le_induction with
  | base => exact le_refl _
  | succ n hmn ih =>
    have h1 := ih (by omega)
    have hs := h.step n (by omega)
    by_cases hi : i = who n
    · subst hi
      have := (Full.step_clocked (Full.reach_clocked (h.reach (by omega) _)) hs.step).2.1
      omega
    · rw [hs.others i hi]; exact h1

/-- A node that waits sends no sync Interest before the end of the wait. -/
theorem Spec.GRun.waits (h : GRun cfg g who what len) {m n : Nat} (hmn : m ≤ n) (hn : n ≤ len)
    (hstop : ∀ k, m ≤ k → k < n → ∀ p, ¬ (what k).Publishes p) {i : ι} {d : Nat} {l : List Out}
    (hd : Full.Held d l (g m i)) : Full.Held d (g n i).log (g n i) ∨ d ≤ (g n i).now := by
  induction n, hmn using Nat.le_induction with
  | base => exact Or.inl hd.rebase
  | succ n hmn ih =>
    have hs := h.step n (by omega)
    rcases ih (by omega) (fun k h1 h2 => hstop k h1 (by omega)) with h1 | h1
    · by_cases hi : i = who n
      · subst hi
        by_cases hdue : d ≤ (g n (who n)).now
        · exact Or.inr (le_trans hdue (h.time (Nat.le_succ n) (by omega) _))
        · exact Or.inl (Full.step_held h1 (fun _ => by omega) (hstop n hmn (by omega)) hs.step).rebase
      · rw [hs.others i hi]; exact Or.inl h1
    · exact Or.inr (le_trans h1 (h.time (Nat.le_succ n) (by omega) _))

theorem Spec.GRun.waitsAsking (h : GRun cfg g who what len) {m n : Nat} (hmn : m ≤ n) (hn : n < len)
    (hstop : ∀ k, m ≤ k → k ≤ n → ∀ p, ¬ (what k).Publishes p) {i : ι} {d : Nat} {l : List Out}
    (hd : Full.Held d l (g m i)) {nm : Name} {lt : Nat} (hint : Out.interest nm lt ∈ newOutput (g n i) (g (n + 1) i)) :
    d ≤ (g n i).now := by
  rcases h.waits hmn (by omega) (fun k h1 h2 => hstop k h1 (by omega)) hd with h1 | h1
  swap
  · exact h1
  by_contra hdue
  have hs := h.step n hn
  by_cases hi : i = who n
  · subst hi
    obtain ⟨ext, e1, e2⟩ := (Full.step_held h1 (fun _ => by omega) (hstop n hmn (le_refl _)) hs.step).silent
    unfold newOutput at hint
    rw [e1, List.drop_left] at hint
    exact e2 _ _ hint
  · unfold newOutput at hint
    rw [hs.others i hi] at hint
    simp at hint

theorem Spec.GRun.timed (h : GRun cfg g who what len) {n : Nat} (hn : n ≤ len) (i : ι) : Timed (g n i).pub := by
  have h0 : Timed (g 0 i).pub := by
    have := Full.sendSyncInterest_micro (cfg := cfg i) (ρ := Full.opRules (cfg i) .fireSync) (s := Full.fresh (cfg i)) (fun b n hn => ⟨hn, rfl⟩) (h.init i)
    exact this.timed (fun d hd => by simp [Full.view, Full.fresh, SegPub.empty] at hd)
  exact (h.span (Nat.zero_le n) hn i).timed h0

/-- What one node learns from another in two rounds in which no number changes, if the clocks differ by less than 45 ms (less if timers run late). -/
theorem Spec.GRun.servedTwice (hg : IsGroup cfg) (h : GRun cfg g who what len) (hs : Sane cfg (g len))
    (hrem : ∀ k < len, ∀ p, ¬ (what k).Removes p) (hnc : ∀ i, NoCollisionsIn (cfg i).expected (PublishedBy (g len)))
    (hpos : ∀ p q, PublishedBy (g len) p q → q ≠ 0) (hfresh : ∀ i j, (cfg i).freshness = (cfg j).freshness)
    {δ : Nat} (hδ : ∀ i, 2 * δ + (cfg i).lag < 90) (hclock : ∀ n < len, (∀ t, what n ≠ .tick t) → ∀ i j, (g n i).now ≤ (g n j).now + δ)
    {m0 m n : Nat} (hmn : m ≤ n) (hn : n ≤ len) (hstop : ∀ k, m0 ≤ k → k < n → ∀ p, ¬ (what k).Publishes p)
    (hquiet : ∀ i, Covers (g n i).base.getSeqNo (g m0 i).base.getSeqNo) {j i : ι}
    (hx0 : Serves (fun _ _ => True) g who what j i m0 m) (hx : Serves (fun _ _ => True) g who what j i m n) :
    Covers (g m0 j).base.getSeqNo (g m0 i).base.getSeqNo ∨
    ∃ fuel df, Table.diff fuel (g m0 j).base.iblt (g m0 i).base.iblt = .ok df ∧ df.canDecode = false ∧
      ((g m0 j).base.numOwn < (g m0 i).base.numOwn ∨
        (g m0 j).base.numOwn = (g m0 i).base.numOwn ∧ df.positive.length = 0 ∧ df.negative.length > 0) := by
  obtain ⟨k0, a0, int0, lt0, hmk0, hka0, han0, hint0, hw0, hop0, -, hfetch0⟩ := hx0
  obtain ⟨k, a, int, lt, hmk, hka, han, hint, hw, hop, -, hfetch⟩ := hx
  -- the tables of `i` do not change
  have same : ∀ c, Steps (fun _ => False) (g m0 i).base c → Steps (fun _ => False) c (g n i).base →
      c.iblt = (g m0 i).base.iblt ∧ c.numOwn = (g m0 i).base.numOwn := fun c h1 h2 =>
    frozen h1 (covers_trans (covers_steps h2) (hquiet i))
  obtain ⟨b0, c1, c2, c3⟩ := h.sentIn hrem (by omega) hint0
  obtain ⟨b, d1, d2, d3⟩ := h.sentIn hrem (by omega) hint
  have s0 := same b0 ((h.grows hrem (by omega) (by omega) i).trans c2) (c3.trans (h.grows hrem (by omega) hn i))
  have s1 := same b ((h.grows hrem (by omega) (by omega) i).trans d2) (d3.trans (h.grows hrem (by omega) hn i))
  have hname : int0.name = int.name := by
    rw [syncName_eq s0.1 s0.2] at c1
    rw [syncName_eq s1.1 s1.2, c1, Res.ok.injEq] at d1
    exact d1
  refine h.servedAt hg hs hrem hnc hn hstop hquiet (by omega) hka han hint hw hop (fun d hdst hpre => ?_) hfetch
  rcases (h.span (m := a0) (n := a) (by omega) (by omega) j).kept (h.timed (by omega) j) d hdst with
    ⟨hold, e, he0, he, hen⟩ | ⟨x, e, hlen, hx, hdx⟩
  swap
  · refine ⟨x, e, le_trans ?_ hlen, hx, hdx⟩
    exact (h.replies (m := m0) (n := a0) (by omega) (by omega) j).length_le
  exfalso
  have ht0 := ((Full.reach_clocked (h.reach (n := a0) (by omega) j)).timers e he0).2
  have ht := ((Full.reach_clocked (h.reach (n := a) (by omega) j)).timers e he).1
  -- `j` answered the first Interest from its store
  simp only [Full.view] at hold
  obtain ⟨d', hd'⟩ : ∃ d', (g a0 j).pub.replyFromStore int0.name = some d' := by
    cases hst : (g a0 j).pub.replyFromStore int0.name with
    | some d' => exact ⟨d', rfl⟩
    | none =>
      have := storeFind_none.mp hst d hold
      rw [hname, hpre] at this
      cases this
  have hrr : b0.Ranged (cfg j).expected := by
    have := (h.fromNew hrem (n := k0) (by omega) i).trans c2
    rw [← baseNew_congr (hg.same i j)] at this
    exact this.ranged (hg.expected j) (Base.ranged_new (cfg j))
  have hri : b0.Inv := ((h.fromNew hrem (n := k0) (by omega) i).trans c2).inv (Base.inv_new _)
  have c1' := c1
  rw [← syncName_congr (hg.same i j)] at c1'
  obtain ⟨c, hnm, _, _⟩ := honest_name hrr (hg.wf j).iblt_lossless hri.ownLt
  rw [c1', Res.ok.injEq] at hnm
  have hout : Out.data d' ∈ newOutput (g a0 j) (g (a0 + 1) j) := by
    have hstep : Full.step (cfg j) (g a0 j) (.recvInterest int0) = .ok (g (a0 + 1) j) := by
      rw [← hw0, ← hop0]; exact (h.step a0 (by omega)).step
    simp only [Full.step] at hstep
    rw [if_pos (by rw [hnm]; simp [List.isPrefixOf_iff_prefix])] at hstep
    unfold Full.onSyncInterest at hstep
    simp only [hd', Res.ok.injEq] at hstep
    rw [← hstep]
    simp [newOutput, Full.emit]
  obtain ⟨t, hat, htn, hcomp⟩ := hfetch0 d' hout
  obtain ⟨hw', ⟨f, hf, hfa⟩, nm, lt', segs, buf', acts, hsent, hfet, hseg0, hop'⟩ := hcomp
  -- the fetch brought nothing, so `i` waits
  have hsn := h.sane hs (n := t) (by omega)
  obtain ⟨j', k', e', hk', hsegs, hbe⟩ := fetched_reply hg hsn (fun i => h.reach (by omega) i) hsent hfet
  obtain ⟨content, h1, h2, h3⟩ := (h.sourced hg hs (n := t) (by omega) j').replies e' (List.mem_of_getElem? hk')
  have hstep : Full.step (cfg i) (g t i) (.complete buf' acts) = .ok (g (t + 1) i) := by
    rw [← hw', ← hop']; exact (h.step t (by omega)).step
  have henc : Encodable content := by
    refine ⟨fun n' hn' => ?_, ?_⟩
    · obtain ⟨p, x, ⟨j2, hj2⟩, _, rfl⟩ := h2 n' hn'
      exact appendNumber_valid (hsn.names j2 _ hj2) x
    · obtain ⟨y, e1, e2⟩ := (hg.wf j').content_lossless (encodeNames content)
      rw [h3, Option.some.injEq] at e1
      subst e1
      exact (hsn.buffers j' _ (List.mem_of_getElem? hk')).2 _ e2
  have hdec : Full.decodeReply (cfg i) buf' = some content := by
    refine decodeReply_encode (hg.wf i).content_lossless ?_ henc
    rw [hbe, (hg.same j' i).contentCodec]; exact h3
  have hq : Covers (g (t + 1) i).base.getSeqNo (g t i).base.getSeqNo :=
    covers_trans (h.covers hrem (m := t + 1) (n := n) (by omega) hn i) (covers_trans (hquiet i) (h.covers hrem (m := m0) (n := t) (by omega) (by omega) i))
  have hnz : ∀ n' ∈ content, ∀ p q, announced n' = some (p, q) → q ≠ 0 := by
    intro n' hn' p q hpq
    obtain ⟨p', q', h4, h5, rfl⟩ := h2 n' hn'
    rw [announced_appendNumber p' q' h5, Option.some.injEq, Prod.mk.injEq] at hpq
    rw [← hpq.2]
    exact hpos p' q' (h.published (m := t) (n := len) (by omega) (le_refl _) h4)
  have hacts : ∀ c ∈ acts, ∀ p, ¬ c.Removes p := by
    intro c hc p hr
    have := hrem t (by omega) p
    rw [hop'] at this
    exact this ⟨c, hc, hr⟩
  obtain ⟨hheld, hnow, _⟩ := Full.complete_held (Full.reach_inv (h.reach (n := t) (by omega) i)) hf hfa hdec (Or.inr ⟨hq, hnz, hacts⟩) hstep
  have hk := h.waitsAsking (m := t + 1) (n := k) (by omega) (by omega) (fun k' h1 h2 => hstop k' (by omega) (by omega)) hheld hint
  have hlo := (hg.wf i).jitter_lo (g t i).draws
  simp only [MIN_JITTER] at hlo
  have x1 := hclock t (by omega) (by rw [hop']; simp) j i
  have x2 := hclock a (by omega) (by rw [hop]; simp) i j
  have x3 := h.time (m := a0) (n := t) (by omega) (by omega) j
  have x4 := h.time (m := k) (n := a) (by omega) (by omega) i
  have x5 := hfresh i j
  have x6 := hδ j
  omega

end
end PSync
