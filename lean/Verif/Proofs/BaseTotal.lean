import Verif.Proofs.Base
/-!
The IBF of a producer as a signed key list: totality of the base operations, and the IBF as a sequence
of insertions only.
-/
namespace PSync
open Spec

/-! Insert-only histories -/

theorem sumCell_pos_count (A : List U32) : (sumCell (posKeys A)).count = A.length := by
  induction A with
  | nil => simp [posKeys, sumCell, Cell.zero]
  | cons x A ih =>
    simp only [posKeys, List.map_cons, sumCell, Cell.add] at ih ⊢
    rw [ih]; simp

theorem inCell_pos (b : Nat) (A : List U32) (j : Nat) :
    inCell b (posKeys A) j = posKeys (A.filter (fun k => hits b k j)) := by
  simp only [inCell, posKeys, List.filter_map]
  rfl

theorem tableOf_pos_count {b : Nat} {A : List U32} {j : Nat} {c : Cell}
    (h : (tableOf b (posKeys A))[j]? = some c) : c.count = (A.filter (fun k => hits b k j)).length := by
  rw [tableOf_getElem?] at h
  split at h
  · cases h; rw [inCell_pos, sumCell_pos_count]
  · simp at h

/-- Inserting the keys of `A` one by one stays in range if the result is in range. -/
theorem build_inserts {e : Nat} (he : 0 < e) (A : List U32)
    (hr : ∀ c ∈ tableOf (buckets e) (posKeys A), inI32 c.count = true) :
    build e (A.map KeyOp.ins) = .ok (tableOf (buckets e) (posKeys A)) := by
  have hb := buckets_pos he
  unfold build
  rw [new_eq]
  have aux : ∀ (B C : List U32), (∀ c ∈ tableOf (buckets e) (posKeys (B.reverse ++ C)), inI32 c.count = true) →
      foldRes applyOp (tableOf (buckets e) (posKeys C)) (B.map KeyOp.ins)
        = .ok (tableOf (buckets e) (posKeys (B.reverse ++ C))) := by
    intro B
    induction B with
    | nil => intro C _; simp [foldRes]
    | cons x B ih =>
      intro C hC
      simp only [List.map_cons, foldRes, applyOp, Table.insert]
      have hxC : (x :: B).reverse ++ C = B.reverse ++ (x :: C) := by simp
      rw [hxC] at hC ⊢
      rw [ibltUpdate_of hb (tableOf_length _ _), addKey_tableOf, Res.ok_bind]
      · exact ih (x :: C) hC
      · intro j c hc hj
        have h1 := tableOf_pos_count hc
        have hj3 : j < 3 * buckets e := by
          rw [tableOf_getElem?] at hc
          by_contra hn
          rw [if_neg hn] at hc
          simp at hc
        have h2 := hC (sumCell (inCell (buckets e) (posKeys (B.reverse ++ x :: C)) j))
          (by unfold tableOf; exact List.mem_map.mpr ⟨j, by simpa using hj3, rfl⟩)
        rw [inCell_pos, sumCell_pos_count] at h2
        rw [inI32_iff] at h2 ⊢
        simp only [List.filter_append, List.length_append, List.filter_cons, hj, if_true, List.length_cons] at h2
        rw [h1]
        omega
  have h := aux A [] ?_
  · simp only [List.append_nil] at h
    rw [show tableOf (buckets e) [] = tableOf (buckets e) (posKeys []) from rfl, h]
    congr 1
    exact tableOf_perm ((List.reverse_perm A).map _)
  · simp only [List.append_nil]
    rw [show tableOf (buckets e) (posKeys A.reverse) = tableOf (buckets e) (posKeys A) from
      tableOf_perm ((List.reverse_perm A).map _)]
    exact hr

theorem ibltUpdate_inI32 {e : Nat} (he : 0 < e) {t t' : Table} {pm : Int} {k : U32} (hl : t.length = 3 * buckets e)
    (ht : ∀ c ∈ t, inI32 c.count = true) (h : ibltUpdate t pm k = .ok t') : ∀ c ∈ t', inI32 c.count = true := by
  obtain ⟨rfl, h2⟩ := ibltUpdate_ok (buckets_pos he) hl h
  intro c hc
  obtain ⟨j, hj⟩ := List.mem_iff_getElem?.mp hc
  rw [addKey_getElem?] at hj
  cases hx : t[j]? with
  | none => simp [hx] at hj
  | some x =>
    rw [hx] at hj
    simp only [Option.map_some, Option.some.injEq] at hj
    subst hj
    split
    · rename_i hh; exact h2 j x hx hh
    · exact ht x (List.mem_of_getElem? hx)

theorem build_range {e : Nat} (he : 0 < e) {ops : List KeyOp} {t : Table} (h : build e ops = .ok t) :
    t.length = 3 * buckets e ∧ ∀ c ∈ t, inI32 c.count = true := by
  unfold build at h
  refine foldRes_inv (P := fun t : Table => t.length = 3 * buckets e ∧ ∀ c ∈ t, inI32 c.count = true) ops ?_ ?_ h
  · intro s o s' _ hs ho
    have h1 : ∃ pm k, ibltUpdate s pm k = .ok s' := by
      cases o with
      | ins k => exact ⟨1, k, ho⟩
      | del k => exact ⟨-1, k, ho⟩
    obtain ⟨pm, k, h1⟩ := h1
    refine ⟨?_, ibltUpdate_inI32 he hs.1 hs.2 h1⟩
    rw [(ibltUpdate_ok (buckets_pos he) hs.1 h1).1, addKey_length]
    exact hs.1
  · unfold Table.new
    rw [nCells_eq]
    refine ⟨by simp, ?_⟩
    intro c hc
    rw [List.eq_of_mem_replicate hc]
    decide

/-- An IBF that holds a set is the one obtained by inserting its keys. -/
theorem build_of_holds {e : Nat} (he : 0 < e) {t : Table} {A : List U32} (h : HoldsSet e t A) :
    build e (A.map KeyOp.ins) = .ok t := by
  have ht := holdsSet_table he h
  obtain ⟨_, ops, hb, _⟩ := h
  rw [build_inserts he A, ht]
  rw [← ht]
  exact (build_range he hb).2

namespace Base

theorem Exact.ibfExact {e : Nat} (he : 0 < e) {b : Base} (hb : b.Inv) (hx : b.Exact e) :
    IbfExact e b.getSeqNo b.iblt := by
  refine ⟨b.biMap.map Prod.snd, hb.nodupR, ?_, ?_⟩
  · intro n
    constructor
    · intro hn
      obtain ⟨⟨x, n'⟩, hm, rfl⟩ := List.mem_map.mp hn
      exact (hb.bm _ _ hm).2
    · rintro ⟨p, s, hp, hs, rfl⟩
      exact List.mem_map.mpr ⟨_, hx.all p s hp hs, rfl⟩
  · rw [List.map_map]
    have h1 : b.biMap.map ((fun n => KeyOp.ins (murmurName 11#32 n)) ∘ Prod.snd) = (b.biMap.map Prod.fst).map KeyOp.ins := by
      rw [List.map_map]
      apply List.map_congr_left
      rintro ⟨x, n⟩ hm
      simp only [Function.comp_apply, (hb.bm _ _ hm).1]
      rfl
    rw [h1]
    exact build_of_holds he hx.ibf

/-- The IBF as a signed key list no longer than twice the history. -/
def Small (e : Nat) (b : Base) : Prop :=
  ∃ D, Units D ∧ D.length ≤ 2 * b.hist.length ∧ b.iblt = tableOf (buckets e) D

theorem small_new (cfg : Cfg) : Small cfg.expected (Base.new cfg) :=
  ⟨[], by simp [Units], by simp, by simp [Base.new, new_eq]⟩

theorem units_cons {D : List (Int × U32)} (h : Units D) {s : Int} (hs : s = 1 ∨ s = -1) (k : U32) : Units ((s, k) :: D) := by
  intro x hx
  rcases List.mem_cons.mp hx with rfl | hx
  · exact hs
  · exact h x hx

theorem eraseName_small {e : Nat} (he : 0 < e) {b b' : Base} {n : Name} {D : List (Int × U32)} (hD : Units D)
    (hb : b.iblt = tableOf (buckets e) D) (h : b.eraseName n = .ok b') :
    ∃ D', Units D' ∧ D'.length ≤ D.length + 1 ∧ b'.iblt = tableOf (buckets e) D' := by
  obtain ⟨_, _, _, _, ⟨x, t, _, ht, rfl⟩ | ⟨_, hi⟩⟩ := eraseName_ok h
  · rw [hb] at ht
    exact ⟨_, units_cons hD (Or.inr rfl) x, by simp, ibltUpdate_tableOf_ok (buckets_pos he) ht⟩
  · exact ⟨D, hD, by omega, by rw [hi, hb]⟩

theorem Step.small {R : Name → Prop} {e : Nat} (he : 0 < e) {b b' : Base} (h : Step R b b') (hs : b.Small e) :
    b'.Small e := by
  obtain ⟨D, hD, hl, hi⟩ := hs
  cases h with
  | add p =>
    refine ⟨D, hD, by rw [addUserNode_hist]; exact hl, ?_⟩
    rw [← hi]
    unfold addUserNode
    cases b.prefixes.find p <;> rfl
  | remove p _ h =>
    have hh := (removeUserNode_ok h).2.2
    unfold removeUserNode at h
    cases hp : b.prefixes.find p with
    | none => simp only [hp, Res.ok.injEq] at h; subst h; exact ⟨D, hD, hl, hi⟩
    | some s =>
      simp only [hp] at h hh
      obtain ⟨D', h1, h2, h3⟩ := eraseName_small he hD (by exact hi) h
      refine ⟨D', h1, ?_, h3⟩
      rw [hh]; simp only [List.length_append, List.length_cons, List.length_nil]; omega
  | update p q hq h =>
    rcases updateSeqNo_ok h with ⟨rfl, _⟩ | ⟨s, b1, t, hp, hlt, h1, _, _, _, h2, rfl⟩
    · exact ⟨D, hD, hl, hi⟩
    · have : ∃ D', Units D' ∧ D'.length ≤ D.length + 1 ∧ b1.iblt = tableOf (buckets e) D' := by
        split at h1
        · exact eraseName_small he hD hi h1
        · cases h1; exact ⟨D, hD, by omega, hi⟩
      obtain ⟨D', h3, h4, h5⟩ := this
      rw [h5] at h2
      refine ⟨_, units_cons h3 (Or.inl rfl) (nameHash (Name.appendNumber p q)), ?_, ibltUpdate_tableOf_ok (buckets_pos he) h2⟩
      simp only [List.length_append, List.length_cons, List.length_nil]; omega

theorem Steps.small {R : Name → Prop} {e : Nat} (he : 0 < e) {b b' : Base} (h : Steps R b b') (hs : b.Small e) :
    b'.Small e := by
  induction h with
  | refl => exact hs
  | tail _ h ih => exact h.small he ih

theorem eraseName_total {e : Nat} (he : 0 < e) {b : Base} (n : Name) {D : List (Int × U32)} (hD : Units D)
    (hl : D.length < 2147483647) (hb : b.iblt = tableOf (buckets e) D) : ∃ b', b.eraseName n = .ok b' := by
  unfold eraseName
  split
  · rw [hb, Table.erase, ibltUpdate_tableOf (buckets_pos he) hD hl (Or.inr rfl)]
    exact ⟨_, rfl⟩
  · exact ⟨_, rfl⟩

theorem update_total {e : Nat} (he : 0 < e) {b : Base} (hs : b.Small e) (hh : b.hist.length < 1073741823)
    (p : Name) (q : Nat) : ∃ b', b.updateSeqNo p q = .ok b' := by
  obtain ⟨D, hD, hl, hi⟩ := hs
  unfold updateSeqNo
  split
  · exact ⟨_, rfl⟩
  · split
    · exact ⟨_, rfl⟩
    · rename_i old _ hge
      have h1 : ∃ b1, (if old ≠ 0 then b.eraseName (Name.appendNumber p old) else .ok b) = .ok b1 := by
        split
        · exact eraseName_total he _ hD (by omega) hi
        · exact ⟨_, rfl⟩
      obtain ⟨b1, h1⟩ := h1
      have : ∃ D', Units D' ∧ D'.length ≤ D.length + 1 ∧ b1.iblt = tableOf (buckets e) D' := by
        split at h1
        · exact eraseName_small he hD hi h1
        · cases h1; exact ⟨D, hD, by omega, hi⟩
      obtain ⟨D', h3, h4, h5⟩ := this
      rw [h1]
      simp only [Res.ok_bind]
      rw [h5, Table.insert, ibltUpdate_tableOf (buckets_pos he) h3 (by omega) (Or.inl rfl)]
      exact ⟨_, rfl⟩

theorem remove_total {e : Nat} (he : 0 < e) {b : Base} (hs : b.Small e) (hh : b.hist.length < 1073741823)
    (p : Name) : ∃ b', b.removeUserNode p = .ok b' := by
  obtain ⟨D, hD, hl, hi⟩ := hs
  unfold removeUserNode
  split
  · exact ⟨_, rfl⟩
  · exact eraseName_total he _ hD (by omega) (by exact hi)

end Base
end PSync
