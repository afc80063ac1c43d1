import Verif.Model.SegPub
import Verif.Spec.Segments
import Verif.Proofs.NMap
import Verif.Proofs.Base
/-!
Segmentation and the segment store.
-/
namespace PSync
open Spec

theorem chunksAux_spec (n : Nat) (hn : 0 < n) : ∀ (fuel : Nat) (bs : Bytes), bs.length < fuel →
    let cs := chunksAux fuel n bs
    0 < cs.length ∧ cs.flatten = bs ∧ (∀ c ∈ cs, c.length ≤ n) ∧
      (∀ i c, cs[i]? = some c → i + 1 < cs.length → c.length = n) ∧ (bs ≠ [] → ∀ c ∈ cs, c ≠ []) := by
  intro fuel
  induction fuel with
  | zero => intro bs h; omega
  | succ f ih =>
    intro bs hb
    simp only [chunksAux]
    split
    · rename_i hl
      refine ⟨by simp, by simp, by simpa using hl, ?_, by simp⟩
      intro i c _ hi
      simp at hi
    · rename_i hl
      obtain ⟨h1, h2, h3, h4, h5⟩ := ih (bs.drop n) (by rw [List.length_drop]; omega)
      refine ⟨by simp, by rw [List.flatten_cons, h2, List.take_append_drop], ?_, ?_, ?_⟩
      · intro c hc
        rcases List.mem_cons.mp hc with rfl | hc
        · simp
        · exact h3 c hc
      · intro i c hc hi
        cases i with
        | zero =>
          simp only [List.getElem?_cons_zero, Option.some.injEq] at hc
          subst hc
          rw [List.length_take]; omega
        | succ i =>
          simp only [List.getElem?_cons_succ] at hc
          exact h4 i c hc (by simpa using hi)
      · intro hne c hc
        rcases List.mem_cons.mp hc with rfl | hc
        · intro h0
          have := congrArg List.length h0
          rw [List.length_take, List.length_nil] at this
          omega
        · refine h5 ?_ c hc
          intro h0
          have := congrArg List.length h0
          rw [List.length_drop, List.length_nil] at this
          omega

theorem chunks_spec (bs : Bytes) : let cs := chunks maxSegment bs
    0 < cs.length ∧ cs.flatten = bs ∧ (∀ c ∈ cs, c.length ≤ maxSegment) ∧
      (∀ i c, cs[i]? = some c → i + 1 < cs.length → c.length = maxSegment) ∧
      (bs ≠ [] → ∀ c ∈ cs, c ≠ []) :=
  chunksAux_spec maxSegment (by decide) _ _ (by omega)

theorem segmentData_getElem? (name : Name) (bs : Bytes) (fr i : Nat) :
    (segmentData name bs fr)[i]? = ((chunks maxSegment bs)[i]?).map (fun c =>
      { name := name.appendSegment i, contentType := .blob, content := c, freshness := fr,
        finalBlock := some ⟨TlvType.segment, nniBytes ((chunks maxSegment bs).length - 1)⟩ }) := by
  unfold segmentData
  simp only [List.getElem?_map]
  by_cases h : i < (chunks maxSegment bs).length
  · rw [List.getElem?_range h]
    simp only [Option.map_some, List.getElem?_eq_getElem h, List.getD, Option.getD_some]
  · rw [List.getElem?_eq_none (by simpa using h), List.getElem?_eq_none (by simpa using h)]
    rfl

theorem segmentData_length (name : Name) (bs : Bytes) (fr : Nat) :
    (segmentData name bs fr).length = (chunks maxSegment bs).length := by
  simp [segmentData]

theorem segmentData_content (name : Name) (bs : Bytes) (fr : Nat) :
    (segmentData name bs fr).map Data.content = chunks maxSegment bs := by
  apply List.ext_getElem?
  intro i
  rw [List.getElem?_map, segmentData_getElem?]
  cases (chunks maxSegment bs)[i]? <;> rfl

theorem segmentData_spec (name : Name) (bs : Bytes) (fr : Nat) :
    IsSegmentation name bs fr (segmentData name bs fr) := by
  obtain ⟨h1, h2, h3, h4, h5⟩ := chunks_spec bs
  have hmem : ∀ d ∈ segmentData name bs fr, ∃ i c, (chunks maxSegment bs)[i]? = some c ∧
      d = {
        name := name.appendSegment i, contentType := .blob, content := c, freshness := fr,
        finalBlock := some ⟨TlvType.segment, nniBytes ((chunks maxSegment bs).length - 1)⟩ } := by
    intro d hd
    obtain ⟨i, hi⟩ := List.mem_iff_getElem?.mp hd
    rw [segmentData_getElem?] at hi
    cases hc : (chunks maxSegment bs)[i]? with
    | none => simp [hc] at hi
    | some c => rw [hc] at hi; simp only [Option.map_some, Option.some.injEq] at hi; exact ⟨i, c, hc, hi.symm⟩
  constructor
  · rw [segmentData_length]; exact h1
  · rw [segmentData_content]; exact h2
  · intro d hd
    obtain ⟨i, c, hc, rfl⟩ := hmem d hd
    exact h3 c (List.mem_of_getElem? hc)
  · intro i d hd hi
    rw [segmentData_getElem?] at hd
    cases hc : (chunks maxSegment bs)[i]? with
    | none => simp [hc] at hd
    | some c =>
      rw [hc] at hd; simp only [Option.map_some, Option.some.injEq] at hd; subst hd
      exact h4 i c hc (by rw [segmentData_length] at hi; exact hi)
  · intro hne d hd
    obtain ⟨i, c, hc, rfl⟩ := hmem d hd
    exact h5 hne c (List.mem_of_getElem? hc)
  · intro i d hd
    rw [segmentData_getElem?] at hd
    cases hc : (chunks maxSegment bs)[i]? with
    | none => simp [hc] at hd
    | some c => rw [hc] at hd; simp only [Option.map_some, Option.some.injEq] at hd; subst hd; rfl
  · intro d hd
    obtain ⟨i, c, hc, rfl⟩ := hmem d hd
    rw [segmentData_length]; rfl
  · intro d hd
    obtain ⟨i, c, hc, rfl⟩ := hmem d hd
    exact ⟨rfl, rfl⟩

/-! Publishing -/

theorem publish_ok {limit now v : Nat} {p : SegPub} {iname dname : Name} {buf : Bytes} {fr : Nat}
    {r : SegPub × List Data} (h : p.publish limit now v iname dname buf fr = .ok r) :
    r.1.store = (segmentData (dname.appendVersion v) buf fr).foldl (storeInsert limit) p.store ∧
    r.1.timers = p.timers ++ (segmentData (dname.appendVersion v) buf fr).map (fun d => (now + fr, d.name)) ∧
    ∃ last seg, iname.getFromEnd 1 = .ok last ∧
      (if last.isSegment then last.toNumber else .ok 0) = .ok seg ∧
      r.2 = ((segmentData (dname.appendVersion v) buf fr)[seg]?).toList := by
  unfold SegPub.publish at h
  simp only [Res.bind_eq_ok, Res.ok.injEq] at h
  obtain ⟨last, h1, seg, h2, rfl⟩ := h
  refine ⟨rfl, rfl, last, seg, h1, h2, ?_⟩
  simp only
  cases (segmentData (dname.appendVersion v) buf fr)[seg]? <;> rfl

theorem getFromEnd_one {n : Name} (hn : n ≠ []) : n.getFromEnd 1 = .ok (n.getLast hn) := by
  unfold Name.getFromEnd
  have hl : 0 < n.length := List.length_pos_iff.mpr hn
  have h1 : ¬ ((n.length : Int) - (1 : Nat) < 0) := by omega
  simp only [if_neg h1]
  rw [if_pos (by omega)]
  have h2 : ((n.length : Int) - (1 : Nat)).toNat = n.length - 1 := by omega
  rw [h2, List.getElem?_eq_getElem (by omega)]
  rw [List.getLast_eq_getElem]

theorem publish_total {limit now v : Nat} {p : SegPub} {iname dname : Name} {buf : Bytes} {fr : Nat}
    (hn : iname ≠ []) : ∃ r, p.publish limit now v iname dname buf fr = .ok r := by
  unfold SegPub.publish
  rw [getFromEnd_one hn]
  simp only [Res.ok_bind]
  split
  · rename_i hs
    unfold Component.isSegment at hs
    simp only [Bool.and_eq_true] at hs
    unfold Component.toNumber Res.ofOption
    cases hr : readNni (iname.getLast hn).value with
    | none => rw [hr] at hs; simp at hs
    | some x => exact ⟨_, rfl⟩
  · exact ⟨_, rfl⟩

/-! The store -/

theorem storeInsert_mem {limit : Nat} {st : List Data} {d x : Data} (h : x ∈ storeInsert limit st d) :
    x ∈ st ∨ x = d := by
  unfold storeInsert at h
  split at h
  · exact Or.inl h
  · rcases List.mem_append.mp h with h | h
    · split at h
      · exact Or.inl (List.mem_of_mem_tail h)
      · exact Or.inl h
    · exact Or.inr (List.mem_singleton.mp h)

theorem storeInsert_length {limit : Nat} {st : List Data} {d : Data} (hl : 0 < limit) (h : st.length ≤ limit) :
    (storeInsert limit st d).length ≤ limit := by
  unfold storeInsert
  split
  · exact h
  · rw [List.length_append, List.length_singleton]
    split
    · rw [List.length_tail]; omega
    · omega

theorem storeInsert_nodup {limit : Nat} {st : List Data} {d : Data} (h : st.Nodup) : (storeInsert limit st d).Nodup := by
  unfold storeInsert
  split
  · exact h
  · rename_i hd
    rw [List.nodup_append]
    refine ⟨?_, by simp, ?_⟩
    · split
      · exact h.sublist (List.tail_sublist _)
      · exact h
    · intro a ha b hb
      rw [List.mem_singleton.mp hb]
      rintro rfl
      apply hd
      split at ha
      · exact List.mem_of_mem_tail ha
      · exact ha

theorem storeFold_mem {limit : Nat} (ds : List Data) : ∀ {st : List Data} {x : Data},
    x ∈ ds.foldl (storeInsert limit) st → x ∈ st ∨ x ∈ ds := by
  induction ds with
  | nil => intro st x h; exact Or.inl h
  | cons d ds ih =>
    intro st x h
    rcases ih h with h | h
    · rcases storeInsert_mem h with h | h
      · exact Or.inl h
      · exact Or.inr (by simp [h])
    · exact Or.inr (List.mem_cons_of_mem _ h)

theorem storeFold_length {limit : Nat} (hl : 0 < limit) (ds : List Data) : ∀ {st : List Data}, st.length ≤ limit →
    (ds.foldl (storeInsert limit) st).length ≤ limit := by
  induction ds with
  | nil => intro st h; exact h
  | cons d ds ih => intro st h; exact ih (storeInsert_length hl h)

/-- Inserting new packets keeps exactly the most recent ones. -/
theorem storeFold_recent {limit : Nat} (hl : 0 < limit) (ds : List Data) : ∀ {st : List Data}, st.length ≤ limit →
    (st ++ ds).Nodup → ds.foldl (storeInsert limit) st = (st ++ ds).drop ((st ++ ds).length - limit) := by
  induction ds with
  | nil => intro st h _; simp [Nat.sub_eq_zero_of_le h]
  | cons d ds ih =>
    intro st h hn
    have hd : d ∉ st := by
      intro hd
      exact (List.nodup_append.mp hn).2.2 d hd d (by simp) rfl
    have hi : storeInsert limit st d = (st ++ [d]).drop (st.length + 1 - limit) := by
      unfold storeInsert
      rw [if_neg hd]
      split
      · rename_i hge
        have : st.length + 1 - limit = 1 := by omega
        rw [this]
        cases st with
        | nil => simp at hge; omega
        | cons a st => simp
      · rename_i hlt
        have : st.length + 1 - limit = 0 := by omega
        rw [this]; simp
    rw [List.foldl_cons, ih (storeInsert_length hl h), hi]
    · have hk : st.length + 1 - limit ≤ (st ++ [d]).length := by simp
      rw [← List.drop_append_of_le_length hk]
      rw [List.drop_drop]
      simp only [List.append_assoc, List.singleton_append, List.length_drop, List.length_append, List.length_cons]
      congr 1
      omega
    · rw [hi]
      have hk : st.length + 1 - limit ≤ (st ++ [d]).length := by simp
      rw [← List.drop_append_of_le_length hk]
      apply List.Nodup.sublist (List.drop_sublist _ _)
      simpa using hn

/-! Look-up -/

/-- The step of the look-up fold. -/
def better (best : Option Data) (d : Data) : Option Data :=
  match best with
  | none => some d
  | some b => if Name.lt d.name b.name then some d else some b

theorem better_fold (l : List Data) : ∀ (b : Option Data),
    (l.foldl better b = none ↔ b = none ∧ l = []) ∧
    ∀ d, l.foldl better b = some d → (b = some d ∨ d ∈ l) ∧
      (∀ x, b = some x → Name.lt x.name d.name = false) ∧ (∀ x ∈ l, Name.lt x.name d.name = false) := by
  induction l with
  | nil =>
    intro b
    refine ⟨by simp, ?_⟩
    intro d hd
    simp only [List.foldl_nil] at hd
    refine ⟨Or.inl hd, ?_, by simp⟩
    intro x hx
    rw [hd] at hx
    cases hx
    exact Name.lt_irrefl _
  | cons y l ih =>
    intro b
    rw [List.foldl_cons]
    obtain ⟨h1, h2⟩ := ih (better b y)
    have hbn : better b y ≠ none := by
      unfold better
      split
      · simp
      · split <;> simp
    refine ⟨?_, ?_⟩
    · rw [h1]
      constructor
      · rintro ⟨h, _⟩; exact absurd h hbn
      · rintro ⟨_, h⟩; simp at h
    · intro d hd
      obtain ⟨h3, h4, h5⟩ := h2 d hd
      have hle : ∀ a b c : Name, Name.lt a b = false → Name.lt b c = false → Name.lt a c = false := by
        intro a b c hab hbc
        by_contra h
        have hac : Name.lt a c = true := by simpa using h
        by_cases hbc' : b = c
        · subst hbc'; rw [hab] at hac; simp at hac
        · have hcb := Name.lt_total hbc' hbc
          have := Name.lt_trans hac hcb
          rw [hab] at this; simp at this
      unfold better at h3 h4
      cases b with
      | none =>
        simp only at h3 h4
        refine ⟨?_, by simp, ?_⟩
        · rcases h3 with h | h
          · cases h; exact Or.inr (by simp)
          · exact Or.inr (List.mem_cons_of_mem _ h)
        · intro x hx
          rcases List.mem_cons.mp hx with rfl | hx
          · exact h4 _ rfl
          · exact h5 x hx
      | some b0 =>
        simp only at h3 h4
        by_cases hlt : Name.lt y.name b0.name = true
        · rw [if_pos hlt] at h3 h4
          have hy := h4 y rfl
          refine ⟨?_, ?_, ?_⟩
          · rcases h3 with h | h
            · cases h; exact Or.inr (by simp)
            · exact Or.inr (List.mem_cons_of_mem _ h)
          · intro x hx
            cases hx
            exact hle _ _ _ (Name.lt_asymm hlt) hy
          · intro x hx
            rcases List.mem_cons.mp hx with rfl | hx
            · exact hy
            · exact h5 x hx
        · rw [if_neg hlt] at h3 h4
          have hb := h4 b0 rfl
          refine ⟨?_, ?_, ?_⟩
          · rcases h3 with h | h
            · exact Or.inl h
            · exact Or.inr (List.mem_cons_of_mem _ h)
          · intro x hx
            cases hx
            exact hb
          · intro x hx
            rcases List.mem_cons.mp hx with rfl | hx
            · exact hle _ _ _ (by simpa using hlt) hb
            · exact h5 x hx

theorem storeFind_some {st : List Data} {n : Name} {d : Data} (h : storeFind st n = some d) :
    d ∈ st ∧ n.isPrefixOf d.name = true ∧ ∀ x ∈ st, n.isPrefixOf x.name = true → Name.lt x.name d.name = false := by
  have := (better_fold (st.filter (fun d => n.isPrefixOf d.name)) none).2 d h
  obtain ⟨h1, _, h3⟩ := this
  rcases h1 with h1 | h1
  · simp at h1
  · obtain ⟨ha, hb⟩ := List.mem_filter.mp h1
    exact ⟨ha, hb, fun x hx hp => h3 x (List.mem_filter.mpr ⟨hx, hp⟩)⟩

theorem storeFind_none {st : List Data} {n : Name} : storeFind st n = none ↔ ∀ x ∈ st, n.isPrefixOf x.name = false := by
  have := (better_fold (st.filter (fun d => n.isPrefixOf d.name)) none).1
  have h2 : storeFind st n = (st.filter (fun d => n.isPrefixOf d.name)).foldl better none := rfl
  rw [h2, this]
  simp only [true_and, List.filter_eq_nil_iff, Bool.not_eq_true]

/-! Erasure -/

theorem eraseFold_mem (ts : List (Nat × Name)) : ∀ {st : List Data} {x : Data},
    x ∈ ts.foldl (fun st t => storeErase st t.2) st ↔ x ∈ st ∧ ∀ t ∈ ts, t.2.isPrefixOf x.name = false := by
  induction ts with
  | nil => intro st x; simp
  | cons t ts ih =>
    intro st x
    rw [List.foldl_cons, ih]
    simp only [storeErase, List.mem_filter, Bool.not_eq_true', List.mem_cons, forall_eq_or_imp]
    tauto

theorem eraseFold_sublist (ts : List (Nat × Name)) : ∀ (st : List Data),
    (ts.foldl (fun st t => storeErase st t.2) st).Sublist st := by
  induction ts with
  | nil => intro st; exact List.Sublist.refl _
  | cons t ts ih => intro st; exact (ih _).trans List.filter_sublist

theorem fire_mem {p : SegPub} {now : Nat} {x : Data} : x ∈ (p.fire now).store ↔
    x ∈ p.store ∧ ∀ t ∈ p.timers, t.1 ≤ now → t.2.isPrefixOf x.name = false := by
  unfold SegPub.fire
  simp only
  rw [eraseFold_mem]
  simp only [List.mem_filter, decide_eq_true_eq, and_imp]

theorem publish_sent {limit now v : Nat} {p : SegPub} {iname dname : Name} {buf : Bytes} {fr : Nat}
    {r : SegPub × List Data} (h : p.publish limit now v iname dname buf fr = .ok r) :
    SentFor iname dname buf fr r.2 := by
  obtain ⟨_, _, last, seg, h1, h2, h3⟩ := publish_ok h
  refine ⟨v, _, segmentData_spec _ _ _, ?_⟩
  have hl : iname.getLast? = some last := by
    cases hn : iname with
    | nil => rw [hn] at h1; simp [Name.getFromEnd] at h1
    | cons a l =>
      rw [hn, getFromEnd_one (by simp)] at h1
      cases h1
      exact List.getLast?_eq_some_getLast (by simp)
  unfold asked
  rw [hl, h3]
  simp only
  unfold Component.isSegment Component.toNumber at h2
  cases hr : readNni last.value with
  | none =>
    rw [hr] at h2
    simp only [Option.isSome_none, Bool.and_false, Bool.false_eq_true, if_false, Res.ok.injEq] at h2
    subst h2
    split <;> rfl
  | some k =>
    rw [hr] at h2
    by_cases ht : last.type = 50
    · have ht' : last.type = TlvType.segment := ht
      simp only [ht', Option.isSome_some, Bool.and_true, decide_true, if_true, Res.ofOption, Res.ok.injEq] at h2
      subst h2
      rw [if_pos ht]
    · have ht' : ¬ last.type = TlvType.segment := ht
      simp only [ht', Option.isSome_some, Bool.and_true, decide_false, Bool.false_eq_true, if_false, Res.ok.injEq] at h2
      subst h2
      rw [if_neg ht]

end PSync
