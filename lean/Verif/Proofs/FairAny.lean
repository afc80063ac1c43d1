import Verif.Proofs.FairTimed
import Mathlib.Data.Fintype.Lattice
/-!
Rounds in which every node asks all others and takes one of the answers: two of them in which no number changes leave all
nodes with the same numbers.
-/
namespace PSync
open Spec Base

theorem Full.Answerable.congr {cfg : Cfg} {b0 b b0' b' : Base} (h : Full.Answerable cfg b0 b) (h1 : b0.iblt = b0'.iblt)
    (h2 : b0.numOwn = b0'.numOwn) (h3 : b.iblt = b'.iblt) (h4 : b.numOwn = b'.numOwn) : Full.Answerable cfg b0' b' := by
  unfold Full.Answerable at h ⊢
  rw [← h1, ← h2, ← h3, ← h4]
  exact h

section
variable {ι : Type} {cfg : ι → Cfg} {g : Nat → ι → Full} {who : Nat → ι} {what : Nat → Full.Op} {len : Nat}

/-- While no number changes, a node that answers a sync Interest with a reply not older than `m` events differs from the
node that asked. -/
theorem Spec.GRun.answerable (hg : IsGroup cfg) (h : GRun cfg g who what len) (hs : Sane cfg (g len))
    (hrem : ∀ k < len, ∀ p, ¬ (what k).Removes p) (hnc : ∀ i, NoCollisionsIn (cfg i).expected (PublishedBy (g len)))
    {m n : Nat} (hn : n ≤ len) (hstop : ∀ k, m ≤ k → k < n → ∀ p, ¬ (what k).Publishes p)
    (hquiet : ∀ i, Covers (g n i).base.getSeqNo (g m i).base.getSeqNo) {j i : ι} {k a : Nat} {int : Interest} {lt : Nat}
    (hmk : m ≤ k) (hka : k < a) (han : a < n) (hint : Out.interest int.name lt ∈ newOutput (g k i) (g (k + 1) i))
    (hw : who a = j) (hop : what a = .recvInterest int)
    (hsince : ∀ d ∈ (g a j).pub.store, int.name.isPrefixOf d.name = true → ∃ (x : Nat) (e : Name × Bytes × Nat),
      (g m j).replies.length ≤ x ∧ (g a j).replies[x]? = some e ∧ d ∈ segmentData (e.1.appendVersion ((cfg j).version x)) e.2.1 e.2.2)
    {d : Data} (hout : Out.data d ∈ newOutput (g a j) (g (a + 1) j)) :
    Full.Answerable (cfg j) (g m j).base (g m i).base := by
  obtain ⟨b, hb1, hb2, hb3⟩ := h.sentIn hrem (by omega) hint
  have hb0 : Steps (fun _ => False) (Base.new (cfg i)) b := (h.fromNew hrem (by omega) i).trans hb2
  have hba : Steps (fun _ => False) b (g a i).base := hb3.trans (h.grows hrem (by omega) (by omega) i)
  have same : ∀ i c, Steps (fun _ => False) (g m i).base c → Steps (fun _ => False) c (g n i).base →
      c.iblt = (g m i).base.iblt ∧ c.numOwn = (g m i).base.numOwn := fun i c h1 h2 =>
    frozen h1 (covers_trans (covers_steps h2) (hquiet i))
  have sb := same i b ((h.grows hrem (by omega) (by omega) i).trans hb2) (hba.trans (h.grows hrem (by omega) hn i))
  have hwf := hg.wf j
  have hb1' := hb1
  rw [← syncName_congr (hg.same i j)] at hb1'
  have hb0' := hb0
  rw [← baseNew_congr (hg.same i j)] at hb0'
  have hbT : Steps (fun _ => True) (Base.new (cfg j)) b := hb0'.mono (fun _ h => h.elim)
  have hstep : Full.step (cfg j) (g a j) (.recvInterest int) = .ok (g (a + 1) j) := by
    rw [← hw, ← hop]; exact (h.step a (by omega)).step
  -- a reply of that name, made since
  obtain ⟨e, he, hname⟩ : ∃ e, Full.GoodReply (cfg j) (g m j).base (g (a + 1) j).base e ∧ e.1 = int.name := by
    obtain ⟨ext, hext, hgood⟩ := (h.goodReplies hg hrem (m := m) (n := a + 1) (by omega) (by omega)
      (fun k h1 h2 => hstop k h1 (by omega)) j).replies
    have pick : ∀ (x : Nat) (e : Name × Bytes × Nat), (g m j).replies.length ≤ x → (g (a + 1) j).replies[x]? = some e →
        Full.GoodReply (cfg j) (g m j).base (g (a + 1) j).base e := by
      intro x e hx he
      rw [hext, List.getElem?_append_right hx] at he
      exact hgood e (List.mem_of_getElem? he)
    cases hst : (g a j).pub.replyFromStore int.name with
    | some d' =>
      obtain ⟨hdst, hpre, _⟩ := storeFind_some hst
      obtain ⟨x, e, hlen, hx, hdx⟩ := hsince d' hdst hpre
      have hx' : (g (a + 1) j).replies[x]? = some e := by
        obtain ⟨tl, htl⟩ := h.replies (m := a) (n := a + 1) (by omega) (by omega) j
        rw [← htl, List.getElem?_append_left (List.getElem?_eq_some_iff.mp hx).1, hx]
      have hge := pick x e hlen hx'
      refine ⟨e, hge, ?_⟩
      obtain ⟨_, _, _, _, _, _, _, hel, _⟩ := hge
      obtain ⟨c, hnm, _, _⟩ := honest_name (hbT.ranged (hg.expected j) (Base.ranged_new (cfg j))) hwf.iblt_lossless
        (hbT.inv (Base.inv_new (cfg j))).ownLt
      rw [hb1', Res.ok.injEq] at hnm
      obtain ⟨y, hy⟩ := List.mem_iff_getElem?.mp hdx
      have n1 := (segmentData_spec _ _ _).name y d' hy
      rw [List.isPrefixOf_iff_prefix, n1] at hpre
      unfold Name.appendVersion at hpre
      rw [List.append_assoc] at hpre
      obtain ⟨tl, htl⟩ := hpre
      refine (List.append_inj_left htl ?_).symm
      rw [hel, hnm]
      simp
    | none =>
      have up : ∀ n ≤ len, ∀ p q, PublishedBy (g n) p q → PublishedBy (g len) p q := fun n hn p q => h.published hn (le_refl _)
      have hsj := ((h.sourced hg hs (n := a) (by omega) j).base).mono (up a (by omega))
      have hsi := ((h.sourced hg hs (n := a) (by omega) i).base).mono (up a (by omega))
      have hsb := TableSourced.earlier hb0 hba hsi
      obtain ⟨ext', hext', hans⟩ := Full.answer (hg.wf j) (hg.expected j) (h.reach (by omega) j) hbT (collisionFree_of (hnc j) hsj)
        (collisionFree_of (hnc j) hsb) (noCollisions_of (hnc j) hsj hsb) hb1' hst hstep
      have out : newOutput (g a j) (g (a + 1) j) = ext' := by
        unfold newOutput
        rw [hext', List.drop_left]
      rw [out] at hout
      rcases hans with ⟨h1, _⟩ | ⟨content, buf, fr, d', _, _, _, hrep, _⟩
      · exact absurd hout (h1 d)
      · refine ⟨(int.name, buf, fr), pick (g a j).replies.length _ ?_ (by rw [hrep]; simp), rfl⟩
        exact (h.replies (m := m) (n := a) (by omega) (by omega) j).length_le
  obtain ⟨b0, content, s1, s2, _, _, _, _, hq⟩ := he
  have s0 := same j b0 s1 (s2.trans (h.grows hrem (by omega) hn j))
  exact (hq b hbT (by rw [hname]; exact hb1')).congr s0.1 s0.2 sb.1 sb.2

/-- Nodes with the same numbers have the same tables, and do not answer each other. -/
theorem Spec.GRun.notAnswerable (hg : IsGroup cfg) (h : GRun cfg g who what len) (hs : Sane cfg (g len))
    (hnc : ∀ i, NoCollisionsIn (cfg i).expected (PublishedBy (g len)))
    {m : Nat} (hm : m ≤ len) {j i : ι} (h1 : Covers (g m j).base.getSeqNo (g m i).base.getSeqNo)
    (h2 : Covers (g m i).base.getSeqNo (g m j).base.getSeqNo) : ¬ Full.Answerable (cfg j) (g m j).base (g m i).base := by
  have up : ∀ p q, PublishedBy (g m) p q → PublishedBy (g len) p q := fun p q => h.published hm (le_refl _)
  have hc : ∀ i, CollisionFree (g m i).base.hist := fun i =>
    collisionFree_of (hnc i) (((h.sourced hg hs hm i).base).mono up)
  have le : ∀ {f f' : Name → Option Nat}, Covers f f' → Covers f' f → ∀ p s, s ≠ 0 → f p = some s → f' p = some s := by
    intro f f' c1 c2 p s hs0 hp
    obtain ⟨y, hy, hle⟩ := c1 p s hp hs0
    obtain ⟨z, hz, hle'⟩ := c2 p y hy (by omega)
    rw [hp, Option.some.injEq] at hz
    rw [hy]
    congr 1
    omega
  have heq := (c22_same_ibf_partial (cfg j) (cfg i) (hg.expected j) (hg.same j i).expected (g m j).base (g m i).base
    (Or.inl ⟨_, h.reach hm j, rfl⟩) (Or.inl ⟨_, h.reach hm i, rfl⟩) (hc j) (hc i)
    (fun p s hs0 => ⟨le h1 h2 p s hs0, le h2 h1 p s hs0⟩)).1
  rintro ⟨df, hdf, hq⟩
  rw [heq] at hdf
  have hd := diff_more hdf 1
  rw [diff_self, Res.ok.injEq] at hd
  subst hd
  rcases hq with ⟨_, hq⟩ | ⟨hq, _⟩
  · exact hq rfl
  · cases hq

/-- A reply not older than the first of two rounds: in the second round, every stored reply to the Interest is. -/
theorem Spec.GRun.sinceFirst (hg : IsGroup cfg) (h : GRun cfg g who what len) (hs : Sane cfg (g len))
    (hrem : ∀ k < len, ∀ p, ¬ (what k).Removes p)
    (hpos : ∀ p q, PublishedBy (g len) p q → q ≠ 0) (hfresh : ∀ i j, (cfg i).freshness = (cfg j).freshness)
    {δ : Nat} (hδ : ∀ i, δ + δ + (cfg i).lag < 90) (hclock : ∀ n < len, (∀ t, what n ≠ .tick t) → ∀ i j, (g n i).now ≤ (g n j).now + δ)
    {m0 m n : Nat} (hn : n ≤ len) (hstop : ∀ k, m0 ≤ k → k < n → ∀ p, ¬ (what k).Publishes p)
    (hquiet : ∀ i, Covers (g n i).base.getSeqNo (g m0 i).base.getSeqNo) {j i : ι} (hji : j ≠ i)
    (hx0 : Polls g who what i m0 m) {k a : Nat} {int : Interest} {lt : Nat}
    (hmk : m ≤ k) (hka : k < a) (han : a < n) (hint : Out.interest int.name lt ∈ newOutput (g k i) (g (k + 1) i))
    (hop : what a = .recvInterest int) :
    ∀ d ∈ (g a j).pub.store, int.name.isPrefixOf d.name = true → ∃ (x : Nat) (e : Name × Bytes × Nat),
      (g m0 j).replies.length ≤ x ∧ (g a j).replies[x]? = some e ∧ d ∈ segmentData (e.1.appendVersion ((cfg j).version x)) e.2.1 e.2.2 := by
  intro d hdst hpre
  obtain ⟨k0, nm0, lt0, a0', int0', hmk0, hkm0, hint0, hdel, hfetch0⟩ := hx0
  obtain ⟨hka0, han0, hw0, hop0, hnm0⟩ := hdel j hji
  generalize ha0 : a0' j = a0 at hka0 han0 hw0 hop0
  generalize hi0 : int0' j = int0 at hop0 hnm0
  -- the tables of `i` do not change
  have same : ∀ c, Steps (fun _ => False) (g m0 i).base c → Steps (fun _ => False) c (g n i).base →
      c.iblt = (g m0 i).base.iblt ∧ c.numOwn = (g m0 i).base.numOwn := fun c h1 h2 =>
    frozen h1 (covers_trans (covers_steps h2) (hquiet i))
  obtain ⟨b0, c1, c2, c3⟩ := h.sentIn hrem (by omega) hint0
  obtain ⟨b, d1, d2, d3⟩ := h.sentIn hrem (by omega) hint
  have s0 := same b0 ((h.grows hrem (by omega) (by omega) i).trans c2) (c3.trans (h.grows hrem (by omega) hn i))
  have s1 := same b ((h.grows hrem (by omega) (by omega) i).trans d2) (d3.trans (h.grows hrem (by omega) hn i))
  have hname : int0.name = int.name := by
    rw [hnm0]
    rw [syncName_eq s0.1 s0.2] at c1
    rw [syncName_eq s1.1 s1.2, c1, Res.ok.injEq] at d1
    exact d1
  rw [← hnm0] at c1
  rcases (h.span (m := m0) (n := a) (by omega) (by omega) j).kept (h.timed (by omega) j) d hdst with
    ⟨_, e, he0, he, hen⟩ | ⟨x, e, hlen, hx, hdx⟩
  swap
  · exact ⟨x, e, hlen, hx, hdx⟩
  rcases (h.span (m := a0) (n := a) (by omega) (by omega) j).kept (h.timed (by omega) j) d hdst with
    ⟨hold, _⟩ | ⟨x, e, hlen, hx, hdx⟩
  swap
  · exact ⟨x, e, le_trans (h.replies (m := m0) (n := a0) (by omega) (by omega) j).length_le hlen, hx, hdx⟩
  exfalso
  have ht0 := ((Full.reach_clocked (h.reach (n := m0) (by omega) j)).timers e he0).2
  have ht := ((Full.reach_clocked (h.reach (n := a) (by omega) j)).timers e he).1
  -- `j` answered the first Interest from its store
  simp only [Full.view] at hold
  obtain ⟨d', hd'⟩ : ∃ d', (g a0 j).pub.replyFromStore int0.name = some d' := by
    cases hst : (g a0 j).pub.replyFromStore int0.name with
    | some d' => exact ⟨d', rfl⟩
    | none =>
      have := storeFind_none.mp hst d hold
      rw [hname, hpre] at this
      cases this
  have hrr : b0.Ranged (cfg j).expected := by
    have := (h.fromNew hrem (n := k0) (by omega) i).trans c2
    rw [← baseNew_congr (hg.same i j)] at this
    exact this.ranged (hg.expected j) (Base.ranged_new (cfg j))
  have hri : b0.Inv := ((h.fromNew hrem (n := k0) (by omega) i).trans c2).inv (Base.inv_new _)
  have c1' := c1
  rw [← syncName_congr (hg.same i j)] at c1'
  obtain ⟨c, hnm, _, _⟩ := honest_name hrr (hg.wf j).iblt_lossless hri.ownLt
  rw [c1', Res.ok.injEq] at hnm
  have hout : Out.data d' ∈ newOutput (g a0 j) (g (a0 + 1) j) := by
    have hstep : Full.step (cfg j) (g a0 j) (.recvInterest int0) = .ok (g (a0 + 1) j) := by
      rw [← hw0, ← hop0]; exact (h.step a0 (by omega)).step
    simp only [Full.step] at hstep
    rw [if_pos (by rw [hnm]; simp [List.isPrefixOf_iff_prefix])] at hstep
    unfold Full.onSyncInterest at hstep
    simp only [hd', Res.ok.injEq] at hstep
    rw [← hstep]
    simp [newOutput, Full.emit]
  rw [← ha0] at hout
  obtain ⟨j1, d1', t, hj1, _, hat, htn, hcomp⟩ := hfetch0 ⟨j, d', hji, hout⟩
  have hk1 := (hdel j1 hj1).1
  obtain ⟨hw', ⟨f, hf, hfa⟩, nm, lt', segs, buf', acts, hsent, hfet, hseg0, hop'⟩ := hcomp
  -- the fetch brought nothing, so `i` waits
  have hsn := h.sane hs (n := t) (by omega)
  obtain ⟨j', k', e', hk', hsegs, hbe⟩ := fetched_reply hg hsn (fun i => h.reach (by omega) i) hsent hfet
  obtain ⟨content, h1, h2, h3⟩ := (h.sourced hg hs (n := t) (by omega) j').replies e' (List.mem_of_getElem? hk')
  have hstep : Full.step (cfg i) (g t i) (.complete buf' acts) = .ok (g (t + 1) i) := by
    rw [← hw', ← hop']; exact (h.step t (by omega)).step
  have henc : Encodable content := by
    refine ⟨fun n' hn' => ?_, ?_⟩
    · obtain ⟨p, x, ⟨j2, hj2⟩, _, rfl⟩ := h2 n' hn'
      exact appendNumber_valid (hsn.names j2 _ hj2) x
    · obtain ⟨y, e1, e2⟩ := (hg.wf j').content_lossless (encodeNames content)
      rw [h3, Option.some.injEq] at e1
      subst e1
      exact (hsn.buffers j' _ (List.mem_of_getElem? hk')).2 _ e2
  have hdec : Full.decodeReply (cfg i) buf' = some content := by
    refine decodeReply_encode (hg.wf i).content_lossless ?_ henc
    rw [hbe, (hg.same j' i).contentCodec]; exact h3
  have hq : Covers (g (t + 1) i).base.getSeqNo (g t i).base.getSeqNo :=
    covers_trans (h.covers hrem (m := t + 1) (n := n) (by omega) hn i) (covers_trans (hquiet i) (h.covers hrem (m := m0) (n := t) (by omega) (by omega) i))
  have hnz : ∀ n' ∈ content, ∀ p q, announced n' = some (p, q) → q ≠ 0 := by
    intro n' hn' p q hpq
    obtain ⟨p', q', h4, h5, rfl⟩ := h2 n' hn'
    rw [announced_appendNumber p' q' h5, Option.some.injEq, Prod.mk.injEq] at hpq
    rw [← hpq.2]
    exact hpos p' q' (h.published (m := t) (n := len) (by omega) (le_refl _) h4)
  have hacts : ∀ c ∈ acts, ∀ p, ¬ c.Removes p := by
    intro c hc p hr
    have := hrem t (by omega) p
    rw [hop'] at this
    exact this ⟨c, hc, hr⟩
  obtain ⟨hheld, hnow, _⟩ := Full.complete_held (Full.reach_inv (h.reach (n := t) (by omega) i)) hf hfa hdec (Or.inr ⟨hq, hnz, hacts⟩) hstep
  have hk := h.waitsAsking (m := t + 1) (n := k) (by omega) (by omega) (fun k' h1 h2 => hstop k' (by omega) (by omega)) hheld hint
  have hlo := (hg.wf i).jitter_lo (g t i).draws
  simp only [MIN_JITTER] at hlo
  have x1 := hclock t (by omega) (by rw [hop']; simp) j i
  have x2 := hclock a (by omega) (by rw [hop]; simp) i j
  have x3 := h.time (m := m0) (n := t) (by omega) (by omega) j
  have x4 := h.time (m := k) (n := a) (by omega) (by omega) i
  have x5 := hfresh i j
  have x6 := hδ j
  omega

/-- A node with the smallest sum of numbers, in two rounds in which no number changes. -/
theorem Spec.GRun.smallestServed (hg : IsGroup cfg) (h : GRun cfg g who what len) (hs : Sane cfg (g len))
    (hrem : ∀ k < len, ∀ p, ¬ (what k).Removes p) (hnc : ∀ i, NoCollisionsIn (cfg i).expected (PublishedBy (g len)))
    (hsum : ∀ i, sumSeq (g len i).base.prefixes < 2 ^ 64)
    (hpos : ∀ p q, PublishedBy (g len) p q → q ≠ 0) (hfresh : ∀ i j, (cfg i).freshness = (cfg j).freshness)
    {δ : Nat} (hδ : ∀ i, δ + δ + (cfg i).lag < 90) (hclock : ∀ n < len, (∀ t, what n ≠ .tick t) → ∀ i j, (g n i).now ≤ (g n j).now + δ)
    {m0 m n : Nat} (hm0 : m0 ≤ m) (hmn : m ≤ n) (hn : n ≤ len) (hstop : ∀ k, m0 ≤ k → k < n → ∀ p, ¬ (what k).Publishes p)
    (hquiet : ∀ i, Covers (g n i).base.getSeqNo (g m0 i).base.getSeqNo) {i : ι}
    (hmin : ∀ j, (g m0 i).base.numOwn ≤ (g m0 j).base.numOwn)
    (hx0 : Polls g who what i m0 m) (hx : Polls g who what i m n) (j : ι) (hji : j ≠ i) :
    Covers (g m0 j).base.getSeqNo (g m0 i).base.getSeqNo ∨
    ∃ fuel df, Table.diff fuel (g m0 j).base.iblt (g m0 i).base.iblt = .ok df ∧ df.canDecode = false ∧
      (g m0 j).base.numOwn = (g m0 i).base.numOwn ∧ df.positive.length = 0 ∧ df.negative.length > 0 := by
  have hsorted : ∀ i, (g m0 i).base.prefixes.Sorted := fun i => (Full.reach_inv (h.reach (by omega) i)).sorted
  have hown : ∀ i, (g m0 i).base.numOwn = sumSeq (g m0 i).base.prefixes := by
    intro i
    refine ownSum (h.fromNew hrem (by omega) i) (lt_of_le_of_lt ?_ (hsum i))
    exact sumSeq_le (hsorted i) (Full.reach_inv (h.reach (le_refl _) i)).sorted (h.covers hrem (by omega) (le_refl _) i)
  have hx0' := hx0
  obtain ⟨k, nm, lt, a, int, hmk, hkn, hint, hdel, hfetch⟩ := hx
  have hint' : ∀ j, j ≠ i → Out.interest (int j).name lt ∈ newOutput (g k i) (g (k + 1) i) := by
    intro j hj; rw [(hdel j hj).2.2.2.2]; exact hint
  have since := fun j (hj : j ≠ i) => h.sinceFirst hg hs hrem hpos hfresh hδ hclock hn hstop hquiet hj hx0 hmk
    (hdel j hj).1 (hdel j hj).2.1 (hint' j hj) (hdel j hj).2.2.2.1
  -- what `j` contributes if its only packet is fetched, or it sends none
  have one : ∀ j, j ≠ i → (∀ d, Out.data d ∈ newOutput (g (a j) j) (g (a j + 1) j) → ∃ b, a j < b ∧ b < n ∧ Completes g who what i d b) →
      Covers (g m0 j).base.getSeqNo (g m0 i).base.getSeqNo ∨
      ∃ fuel df, Table.diff fuel (g m0 j).base.iblt (g m0 i).base.iblt = .ok df ∧ df.canDecode = false ∧
        (g m0 j).base.numOwn = (g m0 i).base.numOwn ∧ df.positive.length = 0 ∧ df.negative.length > 0 := by
    intro j hj hf
    rcases h.servedAt hg hs hrem hnc hn hstop hquiet (by omega) (hdel j hj).1 (hdel j hj).2.1 (hint' j hj) (hdel j hj).2.2.1
      (hdel j hj).2.2.2.1 (since j hj) hf with h1 | ⟨fuel, df, h1, h2, h3 | h3⟩
    · exact Or.inl h1
    · have := hmin j; omega
    · exact Or.inr ⟨fuel, df, h1, h2, h3⟩
  by_cases hany : ∃ j d, j ≠ i ∧ Out.data d ∈ newOutput (g (a j) j) (g (a j + 1) j)
  swap
  · exact one j hji (fun d hd => absurd ⟨j, d, hji, hd⟩ hany)
  exfalso
  obtain ⟨j', d, b, hj', hout, hab, hbn, hcomp⟩ := hfetch hany
  have hans := h.answerable hg hs hrem hnc hn hstop hquiet (by omega) (hdel j' hj').1 (hdel j' hj').2.1 (hint' j' hj')
    (hdel j' hj').2.2.1 (hdel j' hj').2.2.2.1 (since j' hj') hout
  have honce : ∀ d', Out.data d' ∈ newOutput (g (a j') j') (g (a j' + 1) j') → d' = d := by
    obtain ⟨b0, hb1, hb2, hb3⟩ := h.sentIn hrem (by omega) (hint' j' hj')
    have hstep : Full.step (cfg j') (g (a j') j') (.recvInterest (int j')) = .ok (g (a j' + 1) j') := by
      have := (h.step (a j') (by omega)).step
      rwa [(hdel j' hj').2.2.1, (hdel j' hj').2.2.2.1] at this
    have hk := (hdel j' hj').1
    cases hst : (g (a j') j').pub.replyFromStore (int j').name with
    | some d1 =>
      simp only [Full.step] at hstep
      have hall : ∀ d', Out.data d' ∈ newOutput (g (a j') j') (g (a j' + 1) j') → d' = d1 := by
        intro d' hd'
        split at hstep
        · unfold Full.onSyncInterest at hstep
          simp only [hst, Res.ok.injEq] at hstep
          rw [← hstep] at hd'
          simpa [newOutput, Full.emit] using hd'
        · simp only [Res.ok.injEq] at hstep
          rw [← hstep] at hd'
          simp [newOutput] at hd'
      intro d' hd'
      rw [hall d' hd', hall d hout]
    | none =>
      rcases h.answer hg hs hrem hnc (by omega) (hdel j' hj').2.2.1 (hdel j' hj').2.2.2.1 hb1
        ((h.fromNew hrem (by omega) i).trans hb2) (hb3.trans (h.grows hrem (by omega) (by omega) i)) hst with ⟨h1, _⟩ | ⟨d1, h1, _⟩
      · exact absurd hout (h1 d)
      · intro d' hd'
        rw [(h1 d').mp hd', (h1 d).mp hout]
  rcases one j' hj' (fun d' hd' => by rw [honce d' hd']; exact ⟨b, hab, hbn, hcomp⟩) with h1 | ⟨fuel, df, h1, h2, h3⟩
  · refine h.notAnswerable hg hs hnc (by omega) h1 ?_ hans
    have := hmin j'
    rw [hown, hown] at this
    exact covers_of_sum (hsorted j') (hsorted i) h1 this
  · obtain ⟨df', h4, h5⟩ := hans
    have e1 := diff_more h1 (cfg j').fuel
    have e2 := diff_more h4 fuel
    rw [Nat.add_comm, e1, Res.ok.injEq] at e2
    subst e2
    rcases h5 with ⟨h5, _⟩ | ⟨_, _, h5⟩
    · rw [h2] at h5; cases h5
    · exact h5 h3

/-- Two rounds in which no number changes leave all nodes with the same numbers. -/
theorem Spec.GRun.polledTwice [Finite ι] (hg : IsGroup cfg) (h : GRun cfg g who what len) (hs : Sane cfg (g len))
    (hrem : ∀ k < len, ∀ p, ¬ (what k).Removes p) (hnc : ∀ i, NoCollisionsIn (cfg i).expected (PublishedBy (g len)))
    (hsum : ∀ i, sumSeq (g len i).base.prefixes < 2 ^ 64)
    (hpos : ∀ p q, PublishedBy (g len) p q → q ≠ 0) (hfresh : ∀ i j, (cfg i).freshness = (cfg j).freshness)
    {δ : Nat} (hδ : ∀ i, δ + δ + (cfg i).lag < 90) (hclock : ∀ n < len, (∀ t, what n ≠ .tick t) → ∀ i j, (g n i).now ≤ (g n j).now + δ)
    {m0 m n : Nat} (hm0 : m0 ≤ m) (hmn : m ≤ n) (hn : n ≤ len) (hstop : ∀ k, m0 ≤ k → k < n → ∀ p, ¬ (what k).Publishes p)
    (hquiet : ∀ i, Covers (g n i).base.getSeqNo (g m0 i).base.getSeqNo)
    (hx0 : ∀ i, Polls g who what i m0 m) (hx : ∀ i, Polls g who what i m n) (j i : ι) :
    Covers (g m0 j).base.getSeqNo (g m0 i).base.getSeqNo := by
  have hsorted : ∀ i, (g m0 i).base.prefixes.Sorted := fun i => (Full.reach_inv (h.reach (by omega) i)).sorted
  have hown : ∀ i, (g m0 i).base.numOwn = sumSeq (g m0 i).base.prefixes := by
    intro i
    refine ownSum (h.fromNew hrem (by omega) i) (lt_of_le_of_lt ?_ (hsum i))
    exact sumSeq_le (hsorted i) (Full.reach_inv (h.reach (le_refl _) i)).sorted (h.covers hrem (by omega) (le_refl _) i)
  have : Nonempty ι := ⟨i⟩
  obtain ⟨y, hy⟩ := Finite.exists_min (fun i => (g m0 i).base.numOwn)
  have serve := fun (i : ι) (hmin : ∀ j, (g m0 i).base.numOwn ≤ (g m0 j).base.numOwn) =>
    h.smallestServed hg hs hrem hnc hsum hpos hfresh hδ hclock hm0 hmn hn hstop hquiet hmin (hx0 i) (hx i)
  have key : ∀ z, Covers (g m0 z).base.getSeqNo (g m0 y).base.getSeqNo := by
    intro z
    by_cases hzy : z = y
    · subst hzy; exact fun p x hp _ => ⟨x, hp, le_refl _⟩
    rcases serve y hy z hzy with h1 | ⟨f1, d1, e1, c1, o1, o2⟩
    · exact h1
    have hz : ∀ j, (g m0 z).base.numOwn ≤ (g m0 j).base.numOwn := by intro j; rw [o1]; exact hy j
    rcases serve z hz y (Ne.symm hzy) with h2 | ⟨f2, d2, e2, c2, o3, o4⟩
    · refine covers_of_sum (hsorted y) (hsorted z) h2 ?_
      rw [← hown, ← hown]; exact hz y
    · exfalso
      have hl : (g m0 z).base.iblt.length = 3 * buckets (cfg z).expected :=
        ((h.fromNew hrem (by omega) z).ranged (hg.expected z) (Base.ranged_new (cfg z))).1
      have := c06_antisymmetric (cfg z).expected (hg.expected z) _ _ hl (f1 + f2) d1 d2 (diff_more e1 f2)
        (by rw [Nat.add_comm]; exact diff_more e2 f1)
      obtain ⟨_, p1, p2⟩ := this
      rw [p1, p2] at o4
      omega
  have back : ∀ z, Covers (g m0 y).base.getSeqNo (g m0 z).base.getSeqNo := by
    intro z
    refine covers_of_sum (hsorted z) (hsorted y) (key z) ?_
    rw [← hown, ← hown]; exact hy z
  exact covers_trans (key j) (back i)

end
end PSync
