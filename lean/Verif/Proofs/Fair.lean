import Verif.Spec.Fair
import Verif.Proofs.FairReply
import Verif.Props.FullAnswer
import Mathlib.Data.Fintype.Prod
import Mathlib.Data.Fintype.Card
/-!
A round in which no number changes leaves all nodes with the same numbers.
-/
namespace PSync
open Spec Base

/-! ### Sums of numbers -/

theorem sumSeq_le {m : NMap Nat} (hm : m.Sorted) : ∀ {m' : NMap Nat}, m'.Sorted → Covers m.find m'.find →
    sumSeq m ≤ sumSeq m' := by
  induction m with
  | nil => intro m' _ _; simp [sumSeq]
  | cons e m ih =>
    obtain ⟨a, x⟩ := e
    intro m' hm' hc
    have hs := hm
    unfold NMap.Sorted at hm
    rw [List.pairwise_cons] at hm
    have hfa : NMap.find ((a, x) :: m) a = some x := (NMap.find_iff hs).mpr (by simp)
    have hrest : Covers (NMap.find m) (m'.erase a).find := by
      intro p y hp hy
      have hmem := NMap.mem_of_find hp
      have hpa : p ≠ a := by
        rintro rfl
        have := hm.1 _ hmem
        simp [Name.lt_irrefl] at this
      obtain ⟨z, hz, hle⟩ := hc p y ((NMap.find_iff hs).mpr (by simp [hmem])) hy
      exact ⟨z, by rw [NMap.find_erase, if_neg (fun h => hpa h.symm)]; exact hz, hle⟩
    have h1 := ih hm.2 (NMap.sorted_erase hm' a) hrest
    have h2 := sumSeq_erase hm' a
    have h3 : x ≤ (m'.find a).getD 0 := by
      by_cases hx : x = 0
      · omega
      · obtain ⟨z, hz, hle⟩ := hc a x hfa hx
        rw [hz]; exact hle
    have h4 : sumSeq ((a, x) :: m) = x + sumSeq m := by simp [sumSeq]
    omega

theorem covers_of_sum {m m' : NMap Nat} (hm : m.Sorted) (hm' : m'.Sorted) (hc : Covers m.find m'.find)
    (hle : sumSeq m' ≤ sumSeq m) : Covers m'.find m.find := by
  intro p x hp hx
  by_contra hno
  have hlt : (m.find p).getD 0 < x := by
    cases hf : m.find p with
    | none => simp; omega
    | some y =>
      by_contra h
      exact hno ⟨y, hf, by simpa using h⟩
  have h1 := sumSeq_set hm p x
  have h2 : sumSeq (m.set p x) ≤ sumSeq m' := by
    apply sumSeq_le (NMap.sorted_set hm p x) hm'
    intro q y hq hy
    rw [NMap.find_set] at hq
    split at hq
    · rename_i h
      subst h
      cases hq
      exact ⟨x, hp, le_refl _⟩
    · exact hc q y hq hy
  omega

/-- If the numbers did not change, the IBF and its element count did not change. -/
theorem frozen {b b' : Base} (h : Steps (fun _ => False) b b') (hc : Covers b'.getSeqNo b.getSeqNo) :
    b'.iblt = b.iblt ∧ b'.numOwn = b.numOwn := by
  induction h with
  | refl => exact ⟨rfl, rfl⟩
  | @tail c b' h1 h2 ih =>
    have hstep : Steps (fun _ => False) c b' := Relation.ReflTransGen.single h2
    have := ih (covers_trans (covers_steps hstep) hc)
    rw [← this.1, ← this.2]
    cases h2 with
    | add p =>
      unfold addUserNode
      cases c.prefixes.find p <;> exact ⟨rfl, rfl⟩
    | remove p hp _ => exact hp.elim
    | update p q hq hu =>
      rcases updateSeqNo_ok hu with ⟨rfl, _⟩ | ⟨s, b1, t, hp, hlt, _⟩
      · exact ⟨rfl, rfl⟩
      · exfalso
        have hf : b'.getSeqNo p = some (max s q) := by
          rw [getSeqNo, find_updateSeqNo hu, if_pos rfl, hp]; rfl
        obtain ⟨y, hy, hle⟩ := hc p _ hf (by omega)
        obtain ⟨z, hz, hle'⟩ := covers_steps h1 p y hy (by omega)
        have : c.prefixes.find p = some z := hz
        rw [hp, Option.some.injEq] at this
        omega

theorem sumRemoved_update (h : List BaseEv) (p : Name) (x y : Nat) (m : NMap Nat) :
    sumRemoved (h ++ [.update p x y m]) = sumRemoved h := by
  induction h with
  | nil => rfl
  | cons e h ih => cases e <;> simp [sumRemoved, ih]

theorem ownSum {c : Cfg} {b : Base} (h : Steps (fun _ => False) (Base.new c) b) (hs : sumSeq b.prefixes < 2 ^ 64) :
    b.numOwn = sumSeq b.prefixes := by
  have hi := h.inv (Base.inv_new c)
  have h0 : sumRemoved b.hist = 0 := by
    clear hi hs
    induction h with
    | refl => rfl
    | tail h1 h2 ih =>
      cases h2 with
      | add p => rw [addUserNode_hist]; exact ih
      | remove p hp _ => exact hp.elim
      | update p q hq hu =>
        rcases updateSeqNo_ok hu with ⟨rfl, _⟩ | ⟨s, b1, t, hp, hlt, _, _, _, _, _, rfl⟩
        · exact ih
        · simp only [sumRemoved_update]; exact ih
  have h1 := hi.own
  rw [h0, Nat.add_zero, Nat.mod_eq_of_lt hi.ownLt, Nat.mod_eq_of_lt (show _ < U64 from hs)] at h1
  exact h1

theorem peelLoop_more {fuel : Nat} {p r : Peel} (h : peelLoop fuel p = .ok r) (k : Nat) : peelLoop (fuel + k) p = .ok r := by
  induction fuel generalizing p with
  | zero => simp [peelLoop] at h
  | succ f ih =>
    rw [show f + 1 + k = (f + k) + 1 by omega]
    simp only [peelLoop, Res.bind_eq_ok] at h ⊢
    obtain ⟨p', h1, h2⟩ := h
    refine ⟨p', h1, ?_⟩
    split at h2
    · rename_i hc; rw [if_pos hc]; exact ih h2
    · rename_i hc; rw [if_neg hc]; exact h2

theorem diff_more {fuel : Nat} {l r : Table} {d : IBLTDiff} (h : Table.diff fuel l r = .ok d) (k : Nat) :
    Table.diff (fuel + k) l r = .ok d := by
  unfold Table.diff at h ⊢
  simp only [Res.bind_eq_ok] at h ⊢
  obtain ⟨t, h1, p, h2, h3⟩ := h
  exact ⟨t, h1, p, peelLoop_more h2 k, h3⟩

theorem out_of_dataOf {l : List Out} {d : Data} (h : d ∈ dataOf l) : Out.data d ∈ l := by
  induction l with
  | nil => simp [dataOf] at h
  | cons o l ih =>
    rcases o with o | o <;> simp only [dataOf, List.mem_cons, Out.data.injEq] at h ⊢
    all_goals first
      | exact Or.inr (ih h)
      | exact h.imp id ih

/-! ### One round -/

section
variable {ι : Type} {cfg : ι → Cfg} {g : Nat → ι → Full} {who : Nat → ι} {what : Nat → Full.Op} {len : Nat}

theorem Spec.GRun.grows (h : GRun cfg g who what len) (hrem : ∀ k < len, ∀ p, ¬ (what k).Removes p) {m n : Nat}
    (hmn : m ≤ n) (hn : n ≤ len) (i : ι) : Steps (fun _ => False) (g m i).base (g n i).base :=
  (h.span hmn hn i).steps.mono (fun p ⟨k, _, h2, h3⟩ => hrem k (by omega) p h3)

theorem Spec.GRun.fromNew (h : GRun cfg g who what len) (hrem : ∀ k < len, ∀ p, ¬ (what k).Removes p) {n : Nat}
    (hn : n ≤ len) (i : ι) : Steps (fun _ => False) (Base.new (cfg i)) (g n i).base := by
  have := h.grows hrem (Nat.zero_le n) hn i
  rwa [Full.init_base (h.init i)] at this

/-- A sync Interest sent in event `k` carries a table of that event. -/
theorem Spec.GRun.sentIn (h : GRun cfg g who what len) (hrem : ∀ k < len, ∀ p, ¬ (what k).Removes p) {k : Nat} (hk : k < len)
    {i : ι} {nm : Name} {lt : Nat} (hi : Out.interest nm lt ∈ newOutput (g k i) (g (k + 1) i)) :
    ∃ b, Full.syncName (cfg i) b = .ok nm ∧ Steps (fun _ => False) (g k i).base b ∧
      Steps (fun _ => False) b (g (k + 1) i).base := by
  have m2 := (h.span (Nat.le_succ k) (by omega) i).mono (Full.rules_le (R' := fun _ => False) (L' := fun _ _ => True)
    (M' := fun _ => True) (fun _ _ _ h => h) (fun p ⟨k, _, h2, h3⟩ => hrem k (by omega) p h3) (fun _ _ _ => trivial)
    (fun _ _ => trivial))
  obtain ⟨ext, h3, h4⟩ := m2.traced.log
  simp only [Full.view] at h3
  unfold newOutput at hi
  rw [h3, List.drop_left] at hi
  rcases h4 _ hi with ⟨d, _, hd⟩ | ⟨b, hb, hnm, _⟩
  · cases hd
  · exact ⟨b, hnm, hb.1, hb.2⟩

/-- Between two moments without publications and removals, only complete replies are made. -/
theorem Spec.GRun.goodReplies (hg : IsGroup cfg) (h : GRun cfg g who what len) (hrem : ∀ k < len, ∀ p, ¬ (what k).Removes p)
    {m n : Nat} (hmn : m ≤ n) (hn : n ≤ len) (hstop : ∀ k, m ≤ k → k < n → ∀ p, ¬ (what k).Publishes p) (i : ι) :
    Full.Answers (cfg i) (g m i) (g n i) := by
  induction n, hmn using Nat.le_induction with
  | base => exact .refl rfl rfl
  | succ n hmn ih =>
    have h1 := ih (by omega) (fun k h1 h2 => hstop k h1 (by omega))
    have hs := h.step n (by omega)
    by_cases hi : i = who n
    · subst hi
      exact h1.trans (Full.step_answers (hg.wf _) (hg.expected _) (Full.reach_steps (h.reach (by omega) _))
        (hrem n (by omega)) (hstop n hmn (by omega)) hs.step)
    · rw [hs.others i hi]; exact h1

/-- A packet of a recorded reply tells which one. -/
theorem Spec.GRun.sameReply {g : ι → Full} (hs : Sane cfg g) {j j' : ι} {k k' : Nat} {e e' : Name × Bytes × Nat}
    (hk : (g j).replies[k]? = some e) (hk' : (g j').replies[k']? = some e') {d : Data}
    (hd : d ∈ segmentData (e.1.appendVersion ((cfg j).version k)) e.2.1 e.2.2)
    (hd' : d ∈ segmentData (e'.1.appendVersion ((cfg j').version k')) e'.2.1 e'.2.2) : e' = e := by
  obtain ⟨x, hx⟩ := List.mem_iff_getElem?.mp hd
  obtain ⟨x', hx'⟩ := List.mem_iff_getElem?.mp hd'
  have n1 := (segmentData_spec _ _ _).name x d hx
  have n2 := (segmentData_spec _ _ _).name x' d hx'
  rw [n1] at n2
  have n3 := List.append_inj_left' n2 rfl
  unfold Name.appendVersion at n3
  have n4 := List.append_inj_right' n3 rfl
  simp only [List.cons.injEq, Tlv.mk.injEq, true_and, and_true] at n4
  have l1 := (List.getElem?_eq_some_iff.mp hk).1
  have l2 := (List.getElem?_eq_some_iff.mp hk').1
  have n5 := nniBytes_inj (hs.version_lt j k l1) (hs.version_lt j' k' l2) n4
  obtain ⟨rfl, rfl⟩ := hs.versions j j' k l1 k' l2 n5
  rw [hk, Option.some.injEq] at hk'
  exact hk'.symm

/-- What one node learns from another while no number changes: everything, unless the difference
does not decode and the other node declines to answer.  `hsince`: a stored reply is not older than `m` events. -/
theorem Spec.GRun.servedAt (hg : IsGroup cfg) (h : GRun cfg g who what len) (hs : Sane cfg (g len))
    (hrem : ∀ k < len, ∀ p, ¬ (what k).Removes p) (hnc : ∀ i, NoCollisionsIn (cfg i).expected (PublishedBy (g len)))
    {m n : Nat} (hn : n ≤ len) (hstop : ∀ k, m ≤ k → k < n → ∀ p, ¬ (what k).Publishes p)
    (hquiet : ∀ i, Covers (g n i).base.getSeqNo (g m i).base.getSeqNo) {j i : ι} {k a : Nat} {int : Interest} {lt : Nat}
    (hmk : m ≤ k) (hka : k < a) (han : a < n) (hint : Out.interest int.name lt ∈ newOutput (g k i) (g (k + 1) i))
    (hw : who a = j) (hop : what a = .recvInterest int)
    (hsince : ∀ d ∈ (g a j).pub.store, int.name.isPrefixOf d.name = true → ∃ (x : Nat) (e : Name × Bytes × Nat),
      (g m j).replies.length ≤ x ∧ (g a j).replies[x]? = some e ∧ d ∈ segmentData (e.1.appendVersion ((cfg j).version x)) e.2.1 e.2.2)
    (hfetch : ∀ d, Out.data d ∈ newOutput (g a j) (g (a + 1) j) → ∃ b, a < b ∧ b < n ∧ Completes g who what i d b) :
    Covers (g m j).base.getSeqNo (g m i).base.getSeqNo ∨
    ∃ fuel df, Table.diff fuel (g m j).base.iblt (g m i).base.iblt = .ok df ∧ df.canDecode = false ∧
      ((g m j).base.numOwn < (g m i).base.numOwn ∨
        (g m j).base.numOwn = (g m i).base.numOwn ∧ df.positive.length = 0 ∧ df.negative.length > 0) := by
  obtain ⟨b, hb1, hb2, hb3⟩ := h.sentIn hrem (by omega) hint
  have hb0 : Steps (fun _ => False) (Base.new (cfg i)) b := (h.fromNew hrem (by omega) i).trans hb2
  have hba : Steps (fun _ => False) b (g a i).base := hb3.trans (h.grows hrem (by omega) (by omega) i)
  -- all tables of the round are the same
  have same : ∀ i c, Steps (fun _ => False) (g m i).base c → Steps (fun _ => False) c (g n i).base →
      Covers (g m i).base.getSeqNo c.getSeqNo ∧ Covers c.getSeqNo (g m i).base.getSeqNo ∧ c.iblt = (g m i).base.iblt ∧
        c.numOwn = (g m i).base.numOwn := by
    intro i c h1 h2
    have h3 := covers_trans (covers_steps h2) (hquiet i)
    exact ⟨covers_steps h1, h3, frozen h1 h3⟩
  have sb := same i b ((h.grows hrem (by omega) (by omega) i).trans hb2) (hba.trans (h.grows hrem (by omega) hn i))
  have sj := same j (g a j).base (h.grows hrem (by omega) (by omega) j) (h.grows hrem (by omega) hn j)
  have hwf := hg.wf j
  have hb1' := hb1
  rw [← syncName_congr (hg.same i j)] at hb1'
  have hb0' := hb0
  rw [← baseNew_congr (hg.same i j)] at hb0'
  have hbT : Steps (fun _ => True) (Base.new (cfg j)) b := hb0'.mono (fun _ h => h.elim)
  have hstep : Full.step (cfg j) (g a j) (.recvInterest int) = .ok (g (a + 1) j) := by
    rw [← hw, ← hop]; exact (h.step a (by omega)).step
  have hri := hbT.inv (Base.inv_new (cfg j))
  have hrr : b.Ranged (cfg j).expected := hbT.ranged (hg.expected j) (Base.ranged_new (cfg j))
  obtain ⟨c, hname, _, _⟩ := honest_name hrr hwf.iblt_lossless hri.ownLt
  rw [hb1', Res.ok.injEq] at hname
  have hrecv : Full.step (cfg j) (g a j) (.recvInterest int) = Full.onSyncInterest (cfg j) (g a j) int false := by
    simp only [Full.step]
    rw [if_pos]
    rw [hname]; simp [List.isPrefixOf_iff_prefix]
  cases hst : (g a j).pub.replyFromStore int.name with
  | some d =>
    left
    have hout : Out.data d ∈ newOutput (g a j) (g (a + 1) j) := by
      rw [hrecv] at hstep
      unfold Full.onSyncInterest at hstep
      simp only [hst, Res.ok.injEq] at hstep
      rw [← hstep]
      simp [newOutput, Full.emit]
    obtain ⟨t, hat, htn, hcomp⟩ := hfetch d hout
    obtain ⟨hw', ⟨f, hf, hfa⟩, nm, lt', segs, buf', acts, hsent, hfet, hseg0, hop'⟩ := hcomp
    have hsn := h.sane hs (n := t) (by omega)
    obtain ⟨j', k', e', hk', hsegs, hbe⟩ := fetched_reply hg hsn (fun i => h.reach (by omega) i) hsent hfet
    obtain ⟨hdst, hpre, _⟩ := storeFind_some hst
    obtain ⟨x, e, hlen, hx, hdx⟩ := hsince d hdst hpre
    · obtain ⟨ext, hext, hgood⟩ := (h.goodReplies hg hrem (m := m) (n := a) (by omega) (by omega)
        (fun k h1 h2 => hstop k h1 (by omega)) j).replies
      have hmem : e ∈ ext := by
        rw [hext, List.getElem?_append_right hlen] at hx
        exact List.mem_of_getElem? hx
      obtain ⟨b0, content, s1, s2, hbuf, hlive, hcomp, hel, _⟩ := hgood e hmem
      have hx' : (g t j).replies[x]? = some e := by
        obtain ⟨tl, htl⟩ := h.replies (m := a) (n := t) (by omega) (by omega) j
        rw [← htl, List.getElem?_append_left (List.getElem?_eq_some_iff.mp hx).1, hx]
      rw [hsegs] at hseg0
      have hee : e' = e := Spec.GRun.sameReply hsn hx' hk' hdx (List.mem_of_getElem? hseg0)
      subst hee
      -- the reply is named by the Interest
      have hen : e'.1 = int.name := by
        obtain ⟨y, hy⟩ := List.mem_iff_getElem?.mp hdx
        have n1 := (segmentData_spec _ _ _).name y d hy
        rw [List.isPrefixOf_iff_prefix, n1] at hpre
        unfold Name.appendVersion at hpre
        rw [List.append_assoc] at hpre
        obtain ⟨tl, htl⟩ := hpre
        refine (List.append_inj_left htl ?_).symm
        rw [hel, hname]
        simp
      have up : ∀ n ≤ len, ∀ p q, PublishedBy (g n) p q → PublishedBy (g len) p q :=
        fun n hn p q => h.published hn (le_refl _)
      have hsj := ((h.sourced hg hs (n := a) (by omega) j).base).mono (up a (by omega))
      have hsi := ((h.sourced hg hs (n := a) (by omega) i).base).mono (up a (by omega))
      have hsb := TableSourced.earlier hb0 hba hsi
      have hs0 := TableSourced.earlier ((h.fromNew hrem (by omega) j).trans s1) s2 hsj
      have hmiss := hcomp b hbT (collisionFree_of (hnc j) hs0) (collisionFree_of (hnc j) hsb)
        (noCollisions_of (hnc j) hs0 hsb) (by rw [hen]; exact hb1')
      have henc : Encodable content := by
        refine ⟨fun n hn => ?_, ?_⟩
        · obtain ⟨p, x, h1, h2, rfl⟩ := hlive n hn
          obtain ⟨j2, hj2⟩ := (hs0.table p x h1).resolve_left h2
          exact appendNumber_valid (hs.names j2 _ hj2) x
        · obtain ⟨y, e1, e2⟩ := (hg.wf j).content_lossless (encodeNames content)
          rw [hbuf, Option.some.injEq] at e1
          subst e1
          exact (hsn.buffers j _ (List.mem_of_getElem? hx')).2 _ e2
      have hstep : Full.step (cfg i) (g t i) (.complete buf' acts) = .ok (g (t + 1) i) := by
        rw [← hw', ← hop']; exact (h.step t (by omega)).step
      have hcov : Covers b0.getSeqNo (g (t + 1) i).base.getSeqNo := by
        refine Full.learn (cfg := cfg i) (hg.wf i).content_lossless (Full.reach_inv (h.reach (by omega) i))
          (buf := buf') ?_ henc
          (fun p x hp => (((h.fromNew hrem (by omega) j).trans s1).inv (Base.inv_new _)).lt _ _ hp) hmiss
          (covers_trans (covers_steps hba) (h.covers hrem (by omega) (by omega) i)) hf hfa ?_ hstep
        · rw [hbe, (hg.same j i).contentCodec]; exact hbuf
        · intro c hc p hr
          have := hrem t (by omega) p
          rw [hop'] at this
          exact this ⟨c, hc, hr⟩
      exact covers_trans (covers_steps s1) (covers_trans hcov (covers_trans (h.covers hrem (by omega) hn i) (hquiet i)))
  | none =>
    have fin : ∀ t, t ≤ n → Covers (g a j).base.getSeqNo (g t i).base.getSeqNo →
        Covers (g m j).base.getSeqNo (g m i).base.getSeqNo := fun t ht hc =>
      covers_trans sj.1 (covers_trans hc (covers_trans (h.covers hrem ht hn i) (hquiet i)))
    rcases h.answer hg hs hrem hnc (by omega) hw hop hb1 hb0 hba hst with ⟨hno, hdec⟩ | ⟨d, hd, hlearn⟩
    · obtain ⟨df, hdf⟩ : ∃ df, Table.diff (cfg j).fuel (g a j).base.iblt b.iblt = .ok df := by
        rw [hrecv, Full.onSyncInterest_honest hrr hwf.iblt_lossless hri.ownLt hb1' hst, Res.bind_eq_ok] at hstep
        obtain ⟨df, h1, _⟩ := hstep
        exact ⟨df, h1⟩
      cases hcd : df.canDecode with
      | true => exact Or.inl (covers_trans sj.1 (covers_trans (hdec df hdf hcd) sb.2.1))
      | false =>
        by_cases h3 : ∃ p x, (g a j).base.prefixes.find p = some x ∧ x ≠ 0
        · right
          refine ⟨(cfg j).fuel, df, by rw [← sj.2.2.1, ← sb.2.2.1]; exact hdf, hcd, ?_⟩
          rw [← sj.2.2.2, ← sb.2.2.2]
          by_contra hcon
          rw [not_or, Nat.not_lt] at hcon
          obtain ⟨s', ext, d, e1, e2, e3, _⟩ := answersAll_base hwf (hg.expected j) (h.reach (by omega) j) hbT hb1' hdf hcd
            hcon.1 hcon.2 h3
          rw [hstep, Res.ok.injEq] at e1
          subst e1
          refine hno d ?_
          unfold newOutput
          rw [e2, List.drop_left]
          have : d ∈ dataOf ext := by rw [e3]; simp
          exact out_of_dataOf this
        · left
          intro p x hp hx
          obtain ⟨y, hy, hle⟩ := sj.1 p x hp hx
          exact absurd ⟨p, y, hy, by omega⟩ h3
    · obtain ⟨t, hat, htn, hcomp⟩ := hfetch d ((hd d).mpr rfl)
      exact Or.inl (fin (t + 1) (by omega) (hlearn t hat (by omega) hcomp))

/-- In a round without a reply in the store at the beginning. -/
theorem Spec.GRun.served (hg : IsGroup cfg) (h : GRun cfg g who what len) (hs : Sane cfg (g len))
    (hrem : ∀ k < len, ∀ p, ¬ (what k).Removes p) (hnc : ∀ i, NoCollisionsIn (cfg i).expected (PublishedBy (g len)))
    {m n : Nat} (hn : n ≤ len) (hstop : ∀ k, m ≤ k → k < n → ∀ p, ¬ (what k).Publishes p)
    (hquiet : ∀ i, Covers (g n i).base.getSeqNo (g m i).base.getSeqNo) {j i : ι} (hx : Serves NotStored g who what j i m n) :
    Covers (g m j).base.getSeqNo (g m i).base.getSeqNo ∨
    ∃ fuel df, Table.diff fuel (g m j).base.iblt (g m i).base.iblt = .ok df ∧ df.canDecode = false ∧
      ((g m j).base.numOwn < (g m i).base.numOwn ∨
        (g m j).base.numOwn = (g m i).base.numOwn ∧ df.positive.length = 0 ∧ df.negative.length > 0) := by
  obtain ⟨k, a, int, lt, hmk, hka, han, hint, hw, hop, hns, hfetch⟩ := hx
  refine h.servedAt hg hs hrem hnc hn hstop hquiet hmk hka han hint hw hop (fun d hdst hpre => ?_) hfetch
  rcases (h.span (m := m) (n := a) (by omega) (by omega) j).since d hdst with hold | hx
  · have := storeFind_none.mp hns d hold
    rw [hpre] at this
    cases this
  · exact hx

/-- If every node learns what it can from every other one, and nothing changes, all have the same numbers. -/
theorem Spec.GRun.allServed (hg : IsGroup cfg) (h : GRun cfg g who what len)
    (hrem : ∀ k < len, ∀ p, ¬ (what k).Removes p)
    (hsum : ∀ i, sumSeq (g len i).base.prefixes < 2 ^ 64) {m : Nat} (hm : m ≤ len)
    (hserved : ∀ j i, j ≠ i → Covers (g m j).base.getSeqNo (g m i).base.getSeqNo ∨
      ∃ fuel df, Table.diff fuel (g m j).base.iblt (g m i).base.iblt = .ok df ∧ df.canDecode = false ∧
        ((g m j).base.numOwn < (g m i).base.numOwn ∨
          (g m j).base.numOwn = (g m i).base.numOwn ∧ df.positive.length = 0 ∧ df.negative.length > 0)) (j i : ι) :
    Covers (g m j).base.getSeqNo (g m i).base.getSeqNo := by
  by_cases hji : j = i
  · subst hji; exact fun p x hp _ => ⟨x, hp, le_refl _⟩
  have hsorted : ∀ i, (g m i).base.prefixes.Sorted := fun i => (Full.reach_inv (h.reach (by omega) i)).sorted
  have hown : ∀ i, (g m i).base.numOwn = sumSeq (g m i).base.prefixes := by
    intro i
    refine ownSum (h.fromNew hrem (by omega) i) (lt_of_le_of_lt ?_ (hsum i))
    exact sumSeq_le (hsorted i) (Full.reach_inv (h.reach (le_refl _) i)).sorted (h.covers hrem (by omega) (le_refl _) i)
  have h1 := hserved j i hji
  have h2 := hserved i j (Ne.symm hji)
  rcases h1 with h1 | ⟨f1, d1, e1, c1, o1⟩
  · exact h1
  rcases h2 with h2 | ⟨f2, d2, e2, c2, o2⟩
  · -- the other node has nothing that this one lacks
    have hle := sumSeq_le (hsorted i) (hsorted j) h2
    rw [hown, hown] at o1
    exact covers_of_sum (hsorted i) (hsorted j) h2 (by omega)
  · exfalso
    have hl : (g m j).base.iblt.length = 3 * buckets (cfg j).expected :=
      ((h.fromNew hrem (by omega) j).ranged (hg.expected j) (Base.ranged_new (cfg j))).1
    have := c06_antisymmetric (cfg j).expected (hg.expected j) _ _ hl (f1 + f2) d1 d2 (diff_more e1 f2)
      (by rw [Nat.add_comm]; exact diff_more e2 f1)
    obtain ⟨_, p1, p2⟩ := this
    rw [p1, p2] at o2
    omega

/-- A round in which no number changes leaves all nodes with the same numbers. -/
theorem Spec.GRun.quietRound (hg : IsGroup cfg) (h : GRun cfg g who what len) (hs : Sane cfg (g len))
    (hrem : ∀ k < len, ∀ p, ¬ (what k).Removes p) (hnc : ∀ i, NoCollisionsIn (cfg i).expected (PublishedBy (g len)))
    (hsum : ∀ i, sumSeq (g len i).base.prefixes < 2 ^ 64)
    {m n : Nat} (hn : n ≤ len) (hstop : ∀ k, m ≤ k → k < n → ∀ p, ¬ (what k).Publishes p)
    (hquiet : ∀ i, Covers (g n i).base.getSeqNo (g m i).base.getSeqNo) (hr : Round NotStored g who what m n) (j i : ι) :
    Covers (g m j).base.getSeqNo (g m i).base.getSeqNo := by
  have := hr.order
  exact h.allServed hg hrem hsum (by omega) (fun j i hji => h.served hg hs hrem hnc hn hstop hquiet (hr.served j i hji)) j i

end
end PSync
