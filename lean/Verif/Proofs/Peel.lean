import Verif.Proofs.Iblt
import Mathlib.Data.List.Nodup
import Mathlib.Data.List.Perm.Subperm
/-!
The peeling loop of `operator-`.
-/
namespace PSync

/-! ### Table difference -/

/-- Cell difference with unbounded counts. -/
def Cell.sub' (l r : Cell) : Cell := ⟨l.count - r.count, l.keySum ^^^ r.keySum, l.keyCheck ^^^ r.keyCheck⟩

theorem cell_sub_ok {l r c : Cell} (h : l.sub r = .ok c) :
    c = l.sub' r ∧ inI32 (l.count - r.count) = true := by
  unfold Cell.sub at h
  split at h
  · rename_i hr; simp only [Res.ok.injEq] at h; exact ⟨h.symm, hr⟩
  · simp at h

theorem cell_sub_of {l r : Cell} (h : inI32 (l.count - r.count) = true) : l.sub r = .ok (l.sub' r) := by
  simp [Cell.sub, h, Cell.sub']

theorem sub_ok : ∀ {l r t : Table}, Table.sub l r = .ok t →
    l.length = r.length ∧ t = List.zipWith Cell.sub' l r
  | [], [], t, h => by simp [Table.sub] at h; simp [h]
  | [], _ :: _, t, h => by simp [Table.sub] at h
  | _ :: _, [], t, h => by simp [Table.sub] at h
  | l :: ls, r :: rs, t, h => by
    simp only [Table.sub, Res.bind_eq_ok, Res.ok.injEq] at h
    obtain ⟨c, hc, cs, hcs, rfl⟩ := h
    obtain ⟨h1, h2⟩ := sub_ok hcs
    have h3 := (cell_sub_ok hc).1
    simp [h1, h2, h3]

theorem sub_of : ∀ {l r : Table}, l.length = r.length →
    (∀ (j : Nat) (x y : Cell), l[j]? = some x → r[j]? = some y → inI32 (x.count - y.count) = true) →
    Table.sub l r = .ok (List.zipWith Cell.sub' l r)
  | [], [], _, _ => rfl
  | [], _ :: _, h, _ => by simp at h
  | _ :: _, [], h, _ => by simp at h
  | l :: ls, r :: rs, h, hr => by
    have h1 := hr 0 l r rfl rfl
    have h2 := sub_of (l := ls) (r := rs) (by simpa using h) (fun j x y hx hy => hr (j + 1) x y hx hy)
    simp [Table.sub, cell_sub_of h1, h2]

theorem sub_cases : ∀ {l r : Table}, l.length = r.length →
    Table.sub l r = .ok (List.zipWith Cell.sub' l r) ∨ Table.sub l r = .ub .signedOverflow
  | [], [], _ => Or.inl rfl
  | [], _ :: _, h => by simp at h
  | _ :: _, [], h => by simp at h
  | l :: ls, r :: rs, h => by
    by_cases hr : inI32 (l.count - r.count) = true
    · rcases sub_cases (l := ls) (r := rs) (by simpa using h) with h2 | h2
      · left; simp [Table.sub, cell_sub_of hr, h2]
      · right; simp [Table.sub, cell_sub_of hr, h2]
    · right; simp [Table.sub, Cell.sub, hr]

theorem zipWith_tableOf (b : Nat) (D E : List (Int × U32)) :
    List.zipWith Cell.sub' (tableOf b D) (tableOf b E) = tableOf b (D ++ negKeys E) := by
  unfold tableOf
  rw [List.zipWith_map]
  simp only [List.zipWith_self]
  apply List.map_congr_left
  intro j _
  rw [inCell_append_neg, sumCell_append_neg]
  rfl

theorem sub_tableOf {b : Nat} {D E : List (Int × U32)} (hD : Units D) (hE : Units E)
    (hl : D.length + E.length < 2147483648) :
    Table.sub (tableOf b D) (tableOf b E) = .ok (tableOf b (D ++ negKeys E)) := by
  rw [sub_of (by simp), zipWith_tableOf]
  intro j x y hx hy
  have h1 := tableOf_count_bound hD hx
  have h2 := tableOf_count_bound hE hy
  rw [inI32_iff]
  omega

/-! ### Ordered set insertion -/

theorem mem_setInsert (s : List U32) (x k : U32) : k ∈ setInsert s x ↔ k = x ∨ k ∈ s := by
  induction s with
  | nil => simp [setInsert]
  | cons y s ih =>
    simp only [setInsert]
    split
    · rename_i h; subst h; simp
    · split
      · simp
      · simp only [List.mem_cons, ih]; tauto

theorem setInsert_ne_nil (s : List U32) (x : U32) : setInsert s x ≠ [] := by
  intro h
  have := (mem_setInsert s x x).mpr (Or.inl rfl)
  rw [h] at this; simp at this

/-- Strictly ascending. -/
def Ascending (s : List U32) : Prop := s.Pairwise (fun a b => a.toNat < b.toNat)

theorem setInsert_ascending {s : List U32} (h : Ascending s) (x : U32) : Ascending (setInsert s x) := by
  induction s with
  | nil => simp [setInsert, Ascending]
  | cons y s ih =>
    simp only [setInsert]
    unfold Ascending at *
    rw [List.pairwise_cons] at h
    split
    · rw [List.pairwise_cons]; exact h
    · rename_i hne
      have hne' : x.toNat ≠ y.toNat := fun e => hne (BitVec.eq_of_toNat_eq e)
      split
      · rename_i hlt
        rw [List.pairwise_cons]
        refine ⟨?_, List.pairwise_cons.mpr h⟩
        intro z hz
        rcases List.mem_cons.mp hz with rfl | hz
        · exact hlt
        · have := h.1 z hz; omega
      · rename_i hlt
        rw [List.pairwise_cons]
        refine ⟨?_, ih h.2⟩
        intro z hz
        rcases (mem_setInsert _ _ _).mp hz with rfl | hz
        · omega
        · exact h.1 z hz

theorem Ascending.nodup {s : List U32} (h : Ascending s) : s.Nodup := by
  unfold Ascending at h
  exact h.imp (fun hlt heq => by subst heq; omega)

/-! ### Peeling a table that holds signed keys -/

/-- No accidental checksum match among the keys that share a cell: whatever part of them is left in
the cell, it only looks pure when it is a single key, and only looks empty when nothing is left. -/
def NoFalsePure (b : Nat) (D : List (Int × U32)) : Prop :=
  ∀ j D', D'.Sublist (inCell b D j) →
    ((sumCell D').isPure = true → D'.length = 1) ∧ ((sumCell D').isEmpty = true → D' = [])

/-- No cell holds exactly one element of `S`. -/
def StopSet (b : Nat) (S : List (Int × U32)) : Prop := ∀ j, (inCell b S j).length ≠ 1

structure PInv (b : Nat) (D : List (Int × U32)) (p : Peel) (R : List (Int × U32)) : Prop where
  table : p.table = tableOf b R
  sub : R.Sublist D
  pos : ∀ k, k ∈ p.positive ↔ (1, k) ∈ D ∧ (1, k) ∉ R
  neg : ∀ k, k ∈ p.negative ↔ (-1, k) ∈ D ∧ (-1, k) ∉ R
  ascP : Ascending p.positive
  ascN : Ascending p.negative
  stop : ∀ S, S.Nodup → StopSet b S → S ⊆ D → S ⊆ R

theorem isPure_single {s : Int} {k : U32} (hs : s = 1 ∨ s = -1) : (sumCell [(s, k)]).isPure = true := by
  simp [sumCell, Cell.add, Cell.zero, Cell.isPure, hs, keyHash]

theorem sumCell_single (s : Int) (k : U32) : sumCell [(s, k)] = ⟨s, k, keyHash k⟩ := by
  simp [sumCell, Cell.add, Cell.zero]

theorem inCell_sublist {b : Nat} {R D : List (Int × U32)} (h : R.Sublist D) (j : Nat) :
    (inCell b R j).Sublist (inCell b D j) := h.filter _

theorem tableOf_erase {b : Nat} {R : List (Int × U32)} {s : Int} {k : U32} (h : (s, k) ∈ R) :
    tableOf b ((-s, k) :: R) = tableOf b (R.erase (s, k)) := by
  have hp : R.Perm ((s, k) :: R.erase (s, k)) := List.perm_cons_erase h
  rw [tableOf_perm (List.Perm.cons _ hp), tableOf_cancel]

theorem peelAt_inv {b : Nat} (hb : 0 < b) {D : List (Int × U32)} (hU : Units D) (hN : D.Nodup)
    (hlen : D.length < 2147483647) (hS : NoFalsePure b D) {p : Peel} {R : List (Int × U32)}
    (hI : PInv b D p R) (j : Nat) :
    (peelAt p j = .ok p ∧ (∀ c, p.table[j]? = some c → c.isPure = false)) ∨
    (∃ p' e, peelAt p j = .ok p' ∧ PInv b D p' (R.erase e) ∧ e ∈ R ∧ p'.nErased = p.nErased + 1) := by
  have hRU : Units R := fun e he => hU e (hI.sub.subset he)
  have hRN : R.Nodup := hI.sub.nodup hN
  have hRl := hI.sub.length_le
  cases hc : p.table[j]? with
  | none => left; simp [peelAt, hc]
  | some c =>
    by_cases hp : c.isPure = true
    · right
      have hc' := hc
      rw [hI.table, tableOf_getElem?] at hc'
      by_cases hj : j < 3 * b
      · simp only [hj, if_true, Option.some.injEq] at hc'
        have hs1 := (hS j _ (inCell_sublist hI.sub j)).1 (by rw [hc']; exact hp)
        obtain ⟨e, he⟩ := List.length_eq_one_iff.mp hs1
        obtain ⟨s, k⟩ := e
        have hmem : (s, k) ∈ inCell b R j := by rw [he]; exact List.mem_singleton.mpr rfl
        have hmemR : (s, k) ∈ R := (List.mem_filter.mp hmem).1
        have hs := hRU _ hmemR
        rw [he, sumCell_single] at hc'
        subst hc'
        have hup : ibltUpdate p.table (-s) k = .ok (tableOf b (R.erase (s, k))) := by
          rw [hI.table, ibltUpdate_tableOf hb hRU (by omega) (by omega), tableOf_erase hmemR]
        have hstop : ∀ S, S.Nodup → StopSet b S → S ⊆ D → S ⊆ R.erase (s, k) := by
          intro S hSN hSS hSD
          have hSR := hI.stop S hSN hSS hSD
          have hnot : (s, k) ∉ S := by
            intro hin
            have h1 : (s, k) ∈ inCell b S j := List.mem_filter.mpr ⟨hin, (List.mem_filter.mp hmem).2⟩
            have h2 : inCell b S j ⊆ [(s, k)] := by
              intro x hx
              rw [← he]
              exact List.mem_filter.mpr ⟨hSR (List.mem_filter.mp hx).1, (List.mem_filter.mp hx).2⟩
            have h3 : (inCell b S j).Nodup := hSN.filter _
            have h4 := (List.subperm_of_subset h3 h2).length_le
            have h5 : 0 < (inCell b S j).length := List.length_pos_of_mem h1
            exact hSS j (by simp at h4; omega)
          intro x hx
          exact (List.mem_erase_of_ne (fun e : x = (s, k) => hnot (e ▸ hx))).mpr (hSR hx)
        have key : ∀ x : Int × U32, x ∈ R.erase (s, k) ↔ x ≠ (s, k) ∧ x ∈ R := fun x => hRN.mem_erase_iff
        rcases hs with hs | hs <;> simp only at hs <;> subst hs
        · refine ⟨⟨tableOf b (R.erase (1, k)), setInsert p.positive k, p.negative, p.nErased + 1⟩, (1, k),
            by simp [peelAt, hc, hp, hup], ?_, hmemR, rfl⟩
          refine ⟨rfl, List.erase_sublist.trans hI.sub, ?_, ?_, setInsert_ascending hI.ascP _, hI.ascN, hstop⟩
          · intro k'
            rw [mem_setInsert, hI.pos, key]
            constructor
            · rintro (rfl | ⟨h1, h2⟩)
              · exact ⟨hI.sub.subset hmemR, by simp⟩
              · exact ⟨h1, fun h => h2 h.2⟩
            · rintro ⟨h1, h2⟩
              by_cases hk : k' = k
              · exact Or.inl hk
              · exact Or.inr ⟨h1, fun h => h2 ⟨by simp [hk], h⟩⟩
          · intro k'
            rw [hI.neg, key]; simp
        · refine ⟨⟨tableOf b (R.erase (-1, k)), p.positive, setInsert p.negative k, p.nErased + 1⟩, (-1, k),
            by simp only [peelAt, hc, hp, if_true, hup, Res.ok_bind]; rfl, ?_, hmemR, rfl⟩
          refine ⟨rfl, List.erase_sublist.trans hI.sub, ?_, ?_, hI.ascP, setInsert_ascending hI.ascN _, hstop⟩
          · intro k'
            rw [hI.pos, key]; simp
          · intro k'
            rw [mem_setInsert, hI.neg, key]
            constructor
            · rintro (rfl | ⟨h1, h2⟩)
              · exact ⟨hI.sub.subset hmemR, by simp⟩
              · exact ⟨h1, fun h => h2 h.2⟩
            · rintro ⟨h1, h2⟩
              by_cases hk : k' = k
              · exact Or.inl hk
              · exact Or.inr ⟨h1, fun h => h2 ⟨by simp [hk], h⟩⟩
      · simp [hj] at hc'
    · left
      simp only [Bool.not_eq_true] at hp
      simp [peelAt, hc, hp]

theorem peelFold_inv {b : Nat} (hb : 0 < b) {D : List (Int × U32)} (hU : Units D) (hN : D.Nodup)
    (hlen : D.length < 2147483647) (hS : NoFalsePure b D) (js : List Nat) :
    ∀ {p : Peel} {R : List (Int × U32)}, PInv b D p R →
    ∃ p' R', foldRes peelAt p js = .ok p' ∧ PInv b D p' R' ∧
      p'.nErased + R'.length = p.nErased + R.length ∧ R'.length ≤ R.length ∧
      (R'.length = R.length → p' = p ∧ ∀ j ∈ js, ∀ c, p.table[j]? = some c → c.isPure = false) := by
  induction js with
  | nil => intro p R hI; exact ⟨p, R, rfl, hI, rfl, le_rfl, fun _ => ⟨rfl, by simp⟩⟩
  | cons j js ih =>
    intro p R hI
    rcases peelAt_inv hb hU hN hlen hS hI j with ⟨h1, h2⟩ | ⟨p1, e, h1, hI1, he, hn⟩
    · obtain ⟨p', R', hf, hI', ha, hle, hst⟩ := ih hI
      refine ⟨p', R', by simp [foldRes, h1, hf], hI', ha, hle, ?_⟩
      intro hl
      obtain ⟨rfl, h3⟩ := hst hl
      refine ⟨rfl, ?_⟩
      intro j' hj'
      rcases List.mem_cons.mp hj' with rfl | hj'
      · exact h2
      · exact h3 j' hj'
    · obtain ⟨p', R', hf, hI', ha, hle, hst⟩ := ih hI1
      have hl := List.length_erase_of_mem he
      have hpos : 0 < R.length := List.length_pos_of_mem he
      refine ⟨p', R', by simp [foldRes, h1, hf], hI', by omega, by omega, ?_⟩
      intro hl'; omega

theorem PInv.nErased {b : Nat} {D : List (Int × U32)} {p : Peel} {R : List (Int × U32)} (h : PInv b D p R)
    (n : Nat) : PInv b D { p with nErased := n } R := ⟨h.table, h.sub, h.pos, h.neg, h.ascP, h.ascN, h.stop⟩

/-- The peeling loop ends after at most `|D| + 1` passes; what is left has no pure cell. -/
theorem peelLoop_inv {b : Nat} (hb : 0 < b) {D : List (Int × U32)} (hU : Units D) (hN : D.Nodup)
    (hlen : D.length < 2147483647) (hS : NoFalsePure b D) (fuel : Nat) :
    ∀ {p : Peel} {R : List (Int × U32)}, PInv b D p R →
    (R.length < fuel → peelLoop fuel p ≠ .hang) ∧
    (peelLoop fuel p = .hang ∨ ∃ p' R', peelLoop fuel p = .ok p' ∧ PInv b D p' R' ∧
      ∀ (j : Nat) (c : Cell), p'.table[j]? = some c → c.isPure = false) := by
  induction fuel with
  | zero => intro p R _; exact ⟨by omega, Or.inl rfl⟩
  | succ fuel ih =>
    intro p R hI
    obtain ⟨p', R', hf, hI', ha, hle, hst⟩ :=
      peelFold_inv hb hU hN hlen hS (List.range p.table.length) (hI.nErased 0)
    simp only at ha
    have hpass : peelPass p = .ok p' := hf
    by_cases hz : p'.nErased > 0
    · have h := ih hI'
      have heq : peelLoop (fuel + 1) p = peelLoop fuel p' := by simp [peelLoop, hpass, hz]
      rw [heq]
      exact ⟨fun hl => h.1 (by omega), h.2⟩
    · have heq : peelLoop (fuel + 1) p = .ok p' := by
        simp only [peelLoop, hpass, Res.ok_bind]; rw [if_neg hz]
      rw [heq]
      refine ⟨fun _ => by simp, Or.inr ⟨p', R', rfl, hI', ?_⟩⟩
      obtain ⟨h1, h2⟩ := hst (by omega)
      intro j c hc
      subst h1
      have : j < p.table.length := by
        have := (List.getElem?_eq_some_iff.mp hc).1
        simpa using this
      exact h2 j (List.mem_range.mpr this) c hc

theorem PInv.init (b : Nat) (D : List (Int × U32)) : PInv b D ⟨tableOf b D, [], [], 0⟩ D :=
  ⟨rfl, List.Sublist.refl _, by simp, by simp, by simp [Ascending], by simp [Ascending],
   fun _ _ _ h => h⟩

/-- Every key is stored somewhere. -/
theorem inCell_first {b : Nat} (hb : 0 < b) {R : List (Int × U32)} {e : Int × U32} (he : e ∈ R) :
    cellIdx b 0 e.2 < 3 * b ∧ e ∈ inCell b R (cellIdx b 0 e.2) := by
  have := cellIdx_lt b 0 e.2 hb
  exact ⟨by omega, List.mem_filter.mpr ⟨he, by simp [hits]⟩⟩

theorem all_empty_iff {b : Nat} (hb : 0 < b) {D R : List (Int × U32)} (hS : NoFalsePure b D)
    (hsub : R.Sublist D) : (tableOf b R).all Cell.isEmpty = true ↔ R = [] := by
  constructor
  · intro h
    rw [List.all_eq_true] at h
    cases R with
    | nil => rfl
    | cons e R =>
      exfalso
      obtain ⟨h1, h2⟩ := inCell_first hb (List.mem_cons_self (a := e) (l := R))
      have h3 := h (sumCell (inCell b (e :: R) (cellIdx b 0 e.2))) (by
        apply List.mem_of_getElem? (i := cellIdx b 0 e.2)
        rw [tableOf_getElem?, if_pos h1])
      rw [(hS _ _ (inCell_sublist hsub _)).2 h3] at h2
      simp at h2
  · rintro rfl
    rw [List.all_eq_true]
    intro c hc
    obtain ⟨j, _, rfl⟩ := List.mem_map.mp hc
    simp [inCell, sumCell, Cell.zero, Cell.isEmpty]

/-- Outcome of peeling a table holding `D`. -/
theorem diff_core {b : Nat} (hb : 0 < b) {D : List (Int × U32)} (hU : Units D) (hN : D.Nodup)
    (hlen : D.length < 2147483647) (hS : NoFalsePure b D) {fuel : Nat} {p : Peel}
    (h : peelLoop fuel ⟨tableOf b D, [], [], 0⟩ = .ok p) :
    ∃ R, PInv b D p R ∧ StopSet b R ∧ (p.table.all Cell.isEmpty = true ↔ R = []) := by
  rcases (peelLoop_inv hb hU hN hlen hS fuel (PInv.init b D)).2 with h' | ⟨p', R, h', hI, hnp⟩
  · rw [h'] at h; simp at h
  · rw [h'] at h
    simp only [Res.ok.injEq] at h
    subst h
    refine ⟨R, hI, ?_, by rw [hI.table]; exact all_empty_iff hb hS hI.sub⟩
    intro j hl
    obtain ⟨e, he⟩ := List.length_eq_one_iff.mp hl
    have hmem : e ∈ inCell b R j := by rw [he]; simp
    have hj : j < 3 * b := by
      have hh := (List.mem_filter.mp hmem).2
      have l0 := cellIdx_lt b 0 e.2 hb
      have l1 := cellIdx_lt b 1 e.2 hb
      have l2 := cellIdx_lt b 2 e.2 hb
      simp only [hits, Bool.or_eq_true, decide_eq_true_eq] at hh
      omega
    have h1 := hnp j (sumCell (inCell b R j)) (by rw [hI.table, tableOf_getElem?, if_pos hj])
    rw [he] at h1
    have := isPure_single (k := e.2) (hU e (hI.sub.subset (List.mem_filter.mp hmem).1))
    rw [this] at h1
    simp at h1

/-- A difference of at most two keys can never produce a false checksum match. -/
theorem noFalsePure_two {b : Nat} {D : List (Int × U32)} (hU : Units D) (hN : (D.map Prod.snd).Nodup)
    (hl : D.length ≤ 2) : NoFalsePure b D := by
  intro j D' hsub
  have hs : D'.Sublist D := hsub.trans List.filter_sublist
  have hU' : Units D' := fun e he => hU e (hs.subset he)
  have hN' : (D'.map Prod.snd).Nodup := (hs.map _).nodup hN
  have hl' := hs.length_le
  match D', hU', hN', hl' with
  | [], _, _, _ => simp [sumCell, Cell.zero, Cell.isPure]
  | [(s, k)], hU', _, _ =>
    have := hU' (s, k) (by simp)
    simp only at this
    refine ⟨fun _ => rfl, ?_⟩
    rw [sumCell_single]
    simp only [Cell.isEmpty, Bool.and_eq_true, decide_eq_true_eq]
    intro h; omega
  | [(s1, k1), (s2, k2)], hU', hN', _ =>
    have h1 := hU' (s1, k1) (by simp)
    have h2 := hU' (s2, k2) (by simp)
    have hne : k1 ≠ k2 := by simpa using hN'
    simp only at h1 h2
    have hc : (sumCell [(s1, k1), (s2, k2)]).count = s2 + s1 := by simp [sumCell, Cell.add, Cell.zero]
    constructor
    · intro h
      unfold Cell.isPure at h
      rw [if_neg (by rw [hc]; omega)] at h
      simp at h
    · intro h
      simp only [sumCell, Cell.add, Cell.zero, Cell.isEmpty] at h
      simp only [Bool.and_eq_true, decide_eq_true_eq, BitVec.zero_xor, BitVec.xor_eq_zero_iff] at h
      exact absurd h.1.2.symm hne
  | _ :: _ :: _ :: _, _, _, hl' => simp at hl'; omega

end PSync
