import Verif.Model.Iblt
import Mathlib.Data.List.Basic
/-!
Algebra of IBF tables: a table as the sum of signed keys.
-/
namespace PSync

/-- Key check value. -/
def keyHash (k : U32) : U32 := murmur32 N_HASHCHECK k

/-- Add a signed key to a cell, unbounded counts. -/
def Cell.add (c : Cell) (s : Int) (k : U32) : Cell := ⟨c.count + s, c.keySum ^^^ k, c.keyCheck ^^^ keyHash k⟩

/-- Key `k` is stored in cell `j` of a table with `b` cells per hash. -/
def hits (b : Nat) (k : U32) (j : Nat) : Bool :=
  decide (cellIdx b 0 k = j) || decide (cellIdx b 1 k = j) || decide (cellIdx b 2 k = j)

theorem cellIdx_lt (b i : Nat) (k : U32) (hb : 0 < b) : cellIdx b i k < i * b + b := by
  unfold cellIdx
  have := Nat.mod_lt (murmur32 (BitVec.ofNat 32 i) k).toNat hb
  omega

theorem cellIdx_ge (b i : Nat) (k : U32) : i * b ≤ cellIdx b i k := by
  unfold cellIdx; omega

theorem getElem?_set_ite {α : Type} (l : List α) (i j : Nat) (a : α) :
    (l.set i a)[j]? = if i = j ∧ j < l.length then some a else l[j]? := by
  rw [List.getElem?_set]
  by_cases h : i = j
  · subst h
    by_cases h2 : i < l.length <;> simp [h2]
  · simp [h]

theorem updateAt_ok {t t' : Table} {idx : Nat} {pm : Int} {k : U32}
    (h : t.updateAt idx pm k = .ok t') :
    ∃ c, t[idx]? = some c ∧ inI32 (c.count + pm) = true ∧ t' = t.set idx (c.add pm k) := by
  unfold Table.updateAt at h
  cases hc : t[idx]? with
  | none => simp [hc] at h
  | some c =>
    simp only [hc, Cell.update] at h
    by_cases hr : inI32 (c.count + pm) = true
    · simp only [hr, if_true, Res.ok_bind, Res.ok.injEq] at h
      exact ⟨c, rfl, hr, h.symm⟩
    · simp [hr] at h

theorem updateAt_of {t : Table} {idx : Nat} {pm : Int} {k : U32} {c : Cell}
    (hc : t[idx]? = some c) (hr : inI32 (c.count + pm) = true) :
    t.updateAt idx pm k = .ok (t.set idx (c.add pm k)) := by
  unfold Table.updateAt
  simp [hc, Cell.update, hr, Cell.add, keyHash]

/-- `ibltUpdate` when it succeeds. -/
def addKey (b : Nat) (t : Table) (s : Int) (k : U32) : Table :=
  t.mapIdx (fun j c => if hits b k j then c.add s k else c)

theorem addKey_length (b : Nat) (t : Table) (s : Int) (k : U32) : (addKey b t s k).length = t.length := by
  simp [addKey]

theorem addKey_getElem? (b : Nat) (t : Table) (s : Int) (k : U32) (j : Nat) :
    (addKey b t s k)[j]? = t[j]?.map (fun c => if hits b k j then c.add s k else c) := by
  simp [addKey, List.getElem?_mapIdx]

theorem set3_eq_addKey {t : Table} {b : Nat} (hb : 0 < b) (hl : t.length = 3 * b) {k : U32} {pm : Int}
    {c0 c1 c2 : Cell} (h0 : t[cellIdx b 0 k]? = some c0) (h1 : t[cellIdx b 1 k]? = some c1)
    (h2 : t[cellIdx b 2 k]? = some c2) :
    ((t.set (cellIdx b 0 k) (c0.add pm k)).set (cellIdx b 1 k) (c1.add pm k)).set (cellIdx b 2 k) (c2.add pm k)
      = addKey b t pm k := by
  have l0 := cellIdx_lt b 0 k hb
  have l1 := cellIdx_lt b 1 k hb
  have l2 := cellIdx_lt b 2 k hb
  have g1 := cellIdx_ge b 1 k
  have g2 := cellIdx_ge b 2 k
  apply List.ext_getElem?
  intro j
  rw [addKey_getElem?]
  simp only [getElem?_set_ite, List.length_set, hits]
  by_cases e2 : cellIdx b 2 k = j
  · subst e2
    simp [h2, hl]; omega
  · by_cases e1 : cellIdx b 1 k = j
    · subst e1
      simp [h1, hl, e2]; omega
    · by_cases e0 : cellIdx b 0 k = j
      · subst e0
        simp [h0, hl, e2, e1]; omega
      · simp [e0, e1, e2]

theorem idx_distinct (b : Nat) (hb : 0 < b) (k : U32) :
    cellIdx b 0 k ≠ cellIdx b 1 k ∧ cellIdx b 0 k ≠ cellIdx b 2 k ∧ cellIdx b 1 k ≠ cellIdx b 2 k := by
  have l0 := cellIdx_lt b 0 k hb
  have l1 := cellIdx_lt b 1 k hb
  have g1 := cellIdx_ge b 1 k
  have g2 := cellIdx_ge b 2 k
  omega

theorem div_three {t : Table} {b : Nat} (hl : t.length = 3 * b) : t.length / N_HASH = b := by
  unfold N_HASH; omega

theorem range_three : List.range N_HASH = [0, 1, 2] := rfl

theorem ibltUpdate_ok {t t' : Table} {b : Nat} (hb : 0 < b) (hl : t.length = 3 * b) {pm : Int} {k : U32}
    (h : ibltUpdate t pm k = .ok t') :
    t' = addKey b t pm k ∧ ∀ j c, t[j]? = some c → hits b k j = true → inI32 (c.count + pm) = true := by
  obtain ⟨d01, d02, d12⟩ := idx_distinct b hb k
  unfold ibltUpdate at h
  simp only [div_three hl, range_three, foldRes] at h
  rw [if_neg (by omega)] at h
  simp only [Res.bind_eq_ok, Res.ok.injEq] at h
  obtain ⟨t1, h1, t2, h2, t3, h3, rfl⟩ := h
  obtain ⟨c0, e0, r0, rfl⟩ := updateAt_ok h1
  obtain ⟨c1, e1, r1, rfl⟩ := updateAt_ok h2
  obtain ⟨c2, e2, r2, rfl⟩ := updateAt_ok h3
  simp only [getElem?_set_ite, List.length_set] at e1 e2
  rw [if_neg (by simp [d01])] at e1
  rw [if_neg (by simp [d12]), if_neg (by simp [d02])] at e2
  refine ⟨set3_eq_addKey hb hl e0 e1 e2, ?_⟩
  intro j c hj hh
  simp only [hits, Bool.or_eq_true, decide_eq_true_eq] at hh
  rcases hh with (rfl | rfl) | rfl
  · rw [e0] at hj; cases hj; exact r0
  · rw [e1] at hj; cases hj; exact r1
  · rw [e2] at hj; cases hj; exact r2

theorem ibltUpdate_of {t : Table} {b : Nat} (hb : 0 < b) (hl : t.length = 3 * b) {pm : Int} {k : U32}
    (hr : ∀ j c, t[j]? = some c → hits b k j = true → inI32 (c.count + pm) = true) :
    ibltUpdate t pm k = .ok (addKey b t pm k) := by
  obtain ⟨d01, d02, d12⟩ := idx_distinct b hb k
  have l0 := cellIdx_lt b 0 k hb
  have l1 := cellIdx_lt b 1 k hb
  have l2 := cellIdx_lt b 2 k hb
  have e0 : t[cellIdx b 0 k]? = some _ := List.getElem?_eq_getElem (by omega)
  have e1 : t[cellIdx b 1 k]? = some _ := List.getElem?_eq_getElem (by omega)
  have e2 : t[cellIdx b 2 k]? = some _ := List.getElem?_eq_getElem (by omega)
  have r0 := hr _ _ e0 (by simp [hits])
  have r1 := hr _ _ e1 (by simp [hits])
  have r2 := hr _ _ e2 (by simp [hits])
  unfold ibltUpdate
  simp only [div_three hl, range_three, foldRes]
  rw [if_neg (by omega)]
  rw [updateAt_of e0 r0]
  simp only [Res.ok_bind]
  rw [updateAt_of (c := t[cellIdx b 1 k]) (by rw [getElem?_set_ite, if_neg (by simp [d01]), e1]) r1]
  simp only [Res.ok_bind]
  rw [updateAt_of (c := t[cellIdx b 2 k])
    (by rw [getElem?_set_ite, if_neg (by simp [d12]), getElem?_set_ite, if_neg (by simp [d02]), e2]) r2]
  simp only [Res.ok_bind]
  rw [set3_eq_addKey hb hl e0 e1 e2]

/-- A failing update is a signed overflow. -/
theorem ibltUpdate_cases {t : Table} {b : Nat} (hb : 0 < b) (hl : t.length = 3 * b) (pm : Int) (k : U32) :
    ibltUpdate t pm k = .ok (addKey b t pm k) ∨ ibltUpdate t pm k = .ub .signedOverflow := by
  obtain ⟨d01, d02, d12⟩ := idx_distinct b hb k
  have l0 := cellIdx_lt b 0 k hb
  have l1 := cellIdx_lt b 1 k hb
  have l2 := cellIdx_lt b 2 k hb
  have e0 : t[cellIdx b 0 k]? = some _ := List.getElem?_eq_getElem (by omega)
  have e1 : t[cellIdx b 1 k]? = some _ := List.getElem?_eq_getElem (by omega)
  have e2 : t[cellIdx b 2 k]? = some _ := List.getElem?_eq_getElem (by omega)
  have step : ∀ (t : Table) (i : Nat) (c : Cell), t[i]? = some c →
      (t.updateAt i pm k = .ok (t.set i (c.add pm k)) ∨ t.updateAt i pm k = .ub .signedOverflow) := by
    intro t i c hc
    by_cases hr : inI32 (c.count + pm) = true
    · exact Or.inl (updateAt_of hc hr)
    · right; simp [Table.updateAt, hc, Cell.update, hr]
  unfold ibltUpdate
  simp only [div_three hl, range_three, foldRes]
  rw [if_neg (by omega)]
  rcases step _ _ _ e0 with h0 | h0
  · rw [h0, Res.ok_bind]
    rcases step (t.set (cellIdx b 0 k) (Cell.add _ pm k)) (cellIdx b 1 k) _
      (by rw [getElem?_set_ite, if_neg (by simp [d01]), e1]) with h1 | h1
    · rw [h1, Res.ok_bind]
      rcases step ((t.set (cellIdx b 0 k) (Cell.add _ pm k)).set (cellIdx b 1 k) (Cell.add _ pm k))
        (cellIdx b 2 k) _
        (by rw [getElem?_set_ite, if_neg (by simp [d12]), getElem?_set_ite, if_neg (by simp [d02]), e2]) with h2 | h2
      · left; rw [h2, Res.ok_bind, set3_eq_addKey hb hl e0 e1 e2]
      · right; rw [h2, Res.ub_bind]
    · right; rw [h1, Res.ub_bind]
  · right; rw [h0, Res.ub_bind]

/-! ### Sums of signed keys -/

/-- Sum of all signed keys of a list, as one cell. -/
def sumCell : List (Int × U32) → Cell
  | [] => Cell.zero
  | (s, k) :: D => (sumCell D).add s k

/-- The signed keys of `D` stored in cell `j`. -/
def inCell (b : Nat) (D : List (Int × U32)) (j : Nat) : List (Int × U32) :=
  D.filter (fun e => hits b e.2 j)

/-- The table holding the signed keys `D`. -/
def tableOf (b : Nat) (D : List (Int × U32)) : Table :=
  (List.range (3 * b)).map (fun j => sumCell (inCell b D j))

@[simp] theorem tableOf_length (b : Nat) (D : List (Int × U32)) : (tableOf b D).length = 3 * b := by
  simp [tableOf]

theorem tableOf_getElem? (b : Nat) (D : List (Int × U32)) (j : Nat) :
    (tableOf b D)[j]? = if j < 3 * b then some (sumCell (inCell b D j)) else none := by
  unfold tableOf
  by_cases h : j < 3 * b <;> simp [h]

theorem addKey_tableOf (b : Nat) (D : List (Int × U32)) (s : Int) (k : U32) :
    addKey b (tableOf b D) s k = tableOf b ((s, k) :: D) := by
  apply List.ext_getElem?
  intro j
  rw [addKey_getElem?, tableOf_getElem?, tableOf_getElem?]
  by_cases h : j < 3 * b
  · by_cases h2 : hits b k j = true <;> simp [h, h2, inCell, sumCell]
  · simp [h]

theorem Cell.add_comm (c : Cell) (s1 s2 : Int) (k1 k2 : U32) :
    (c.add s1 k1).add s2 k2 = (c.add s2 k2).add s1 k1 := by
  simp only [Cell.add, Cell.mk.injEq]
  refine ⟨by omega, ?_, ?_⟩ <;> ac_rfl

theorem sumCell_perm {D D' : List (Int × U32)} (h : D.Perm D') : sumCell D = sumCell D' := by
  induction h with
  | nil => rfl
  | cons x _ ih => obtain ⟨s, k⟩ := x; simp [sumCell, ih]
  | swap x y l => obtain ⟨s, k⟩ := x; obtain ⟨s', k'⟩ := y; simp [sumCell, Cell.add_comm]
  | trans _ _ ih1 ih2 => exact ih1.trans ih2

theorem tableOf_perm {b : Nat} {D D' : List (Int × U32)} (h : D.Perm D') : tableOf b D = tableOf b D' := by
  unfold tableOf
  apply List.map_congr_left
  intro j _
  exact sumCell_perm (h.filter _)

theorem add_cancel (c : Cell) (s : Int) (k : U32) : (c.add s k).add (-s) k = c := by
  cases c
  simp only [Cell.add, Cell.mk.injEq]
  refine ⟨by omega, ?_, ?_⟩ <;> rw [BitVec.xor_assoc, BitVec.xor_self, BitVec.xor_zero]

theorem tableOf_cancel (b : Nat) (D : List (Int × U32)) (s : Int) (k : U32) :
    tableOf b ((-s, k) :: (s, k) :: D) = tableOf b D := by
  unfold tableOf
  apply List.map_congr_left
  intro j _
  unfold inCell
  by_cases h : hits b k j = true <;> simp [h, sumCell, add_cancel]

theorem sumCell_count_bound (D : List (Int × U32)) (h : ∀ e ∈ D, e.1 = 1 ∨ e.1 = -1) :
    -(D.length : Int) ≤ (sumCell D).count ∧ (sumCell D).count ≤ D.length := by
  induction D with
  | nil => simp [sumCell, Cell.zero]
  | cons e D ih =>
    obtain ⟨s, k⟩ := e
    have := ih (fun e he => h e (List.mem_cons_of_mem _ he))
    have hs := h (s, k) (List.mem_cons_self)
    simp only [sumCell, Cell.add, List.length_cons] at *
    omega

/-- Unit signs. -/
def Units (D : List (Int × U32)) : Prop := ∀ e ∈ D, e.1 = 1 ∨ e.1 = -1

theorem inCell_units {b : Nat} {D : List (Int × U32)} (h : Units D) (j : Nat) : Units (inCell b D j) :=
  fun e he => h e (List.mem_filter.mp he).1

theorem inI32_iff (x : Int) : inI32 x = true ↔ -2147483648 ≤ x ∧ x < 2147483648 := by
  simp [inI32]

theorem tableOf_count_bound {b : Nat} {D : List (Int × U32)} (h : Units D) {j : Nat} {c : Cell}
    (hc : (tableOf b D)[j]? = some c) : -(D.length : Int) ≤ c.count ∧ c.count ≤ D.length := by
  rw [tableOf_getElem?] at hc
  by_cases hj : j < 3 * b
  · simp only [hj, if_true, Option.some.injEq] at hc
    subst hc
    have := sumCell_count_bound _ (inCell_units (b := b) h j)
    have hl : (inCell b D j).length ≤ D.length := List.length_filter_le _ _
    omega
  · simp [hj] at hc

theorem ibltUpdate_tableOf {b : Nat} (hb : 0 < b) {D : List (Int × U32)} (hD : Units D)
    (hlen : D.length < 2147483647) {s : Int} (hs : s = 1 ∨ s = -1) (k : U32) :
    ibltUpdate (tableOf b D) s k = .ok (tableOf b ((s, k) :: D)) := by
  rw [ibltUpdate_of hb (tableOf_length b D), addKey_tableOf]
  intro j c hc _
  have := tableOf_count_bound hD hc
  rw [inI32_iff]
  omega

theorem ibltUpdate_tableOf_ok {b : Nat} (hb : 0 < b) {D : List (Int × U32)} {s : Int} {k : U32} {t : Table}
    (h : ibltUpdate (tableOf b D) s k = .ok t) : t = tableOf b ((s, k) :: D) := by
  rw [(ibltUpdate_ok hb (tableOf_length b D) h).1, addKey_tableOf]

/-! ### Net counts determine the table -/

/-- Net multiplicity of a key. -/
def netOf (D : List (Int × U32)) (k : U32) : Int :=
  match D with
  | [] => 0
  | (s, k') :: D => (if k' = k then s else 0) + netOf D k

theorem netOf_append (D E : List (Int × U32)) (k : U32) : netOf (D ++ E) k = netOf D k + netOf E k := by
  induction D with
  | nil => simp [netOf]
  | cons e D ih => obtain ⟨s, k'⟩ := e; simp only [List.cons_append, netOf, ih]; omega

theorem netOf_perm {D E : List (Int × U32)} (h : D.Perm E) (k : U32) : netOf D k = netOf E k := by
  induction h with
  | nil => rfl
  | cons x _ ih => obtain ⟨s, k'⟩ := x; simp [netOf, ih]
  | swap x y l => obtain ⟨s, k1⟩ := x; obtain ⟨s', k2⟩ := y; simp only [netOf]; omega
  | trans _ _ ih1 ih2 => exact ih1.trans ih2

theorem netOf_sign {D : List (Int × U32)} (hD : Units D) {s : Int} (hs : s = 1 ∨ s = -1) {k : U32}
    (hno : (-s, k) ∉ D) : 0 ≤ s * netOf D k := by
  induction D with
  | nil => simp [netOf]
  | cons e D ih =>
    obtain ⟨s', k'⟩ := e
    have h1 := ih (fun e he => hD e (List.mem_cons_of_mem _ he)) (fun h => hno (List.mem_cons_of_mem _ h))
    have h2 := hD (s', k') List.mem_cons_self
    simp only [netOf]
    by_cases hk : k' = k
    · subst hk
      have h3 : s' ≠ -s := by
        intro h; apply hno; rw [h]; exact List.mem_cons_self
      rcases hs with rfl | rfl <;> rcases h2 with h2 | h2 <;> simp only at h2 <;> subst h2 <;> simp at h3 ⊢ <;> omega
    · simpa [hk] using h1

theorem sumCell_of_net_zero (b : Nat) (n : Nat) : ∀ D : List (Int × U32), D.length ≤ n → Units D →
    (∀ k, netOf D k = 0) → tableOf b D = tableOf b [] := by
  induction n with
  | zero =>
    intro D hl _ _
    have : D = [] := List.eq_nil_of_length_eq_zero (by omega)
    rw [this]
  | succ n ih =>
    intro D hl hD hnet
    match D, hl, hD, hnet with
    | [], _, _, _ => rfl
    | (s, k) :: D', hl, hD, hnet =>
      have hs := hD (s, k) List.mem_cons_self
      have hD' : Units D' := fun e he => hD e (List.mem_cons_of_mem _ he)
      have hmem : (-s, k) ∈ D' := by
        by_contra hno
        have h1 := netOf_sign hD' hs hno
        have h2 := hnet k
        simp only [netOf, if_true] at h2
        rcases hs with hs | hs <;> simp only at hs <;> subst hs <;> omega
      have hperm : D'.Perm ((-s, k) :: D'.erase (-s, k)) := List.perm_cons_erase hmem
      have hperm2 : ((s, k) :: D').Perm ((-s, k) :: (s, k) :: D'.erase (-s, k)) :=
        ((List.Perm.cons _ hperm).trans (List.Perm.swap _ _ _))
      rw [tableOf_perm hperm2, tableOf_cancel]
      apply ih
      · have := List.length_erase_of_mem hmem
        have : 0 < D'.length := List.length_pos_of_mem hmem
        simp at hl; omega
      · exact fun e he => hD' e (List.mem_of_mem_erase he)
      · intro k'
        have h2 := hnet k'
        rw [netOf_perm hperm2] at h2
        simp only [netOf] at h2
        split at h2 <;> omega

/-- Reverse the signs. -/
def negKeys (D : List (Int × U32)) : List (Int × U32) := D.map (fun e => (-e.1, e.2))

theorem netOf_negKeys (D : List (Int × U32)) (k : U32) : netOf (negKeys D) k = - netOf D k := by
  induction D with
  | nil => simp [negKeys, netOf]
  | cons e D ih =>
    obtain ⟨s, k'⟩ := e
    simp only [negKeys, List.map_cons, netOf] at *
    rw [ih]; split <;> omega

theorem negKeys_units {D : List (Int × U32)} (h : Units D) : Units (negKeys D) := by
  intro e he
  obtain ⟨e', he', rfl⟩ := List.mem_map.mp he
  have := h e' he'
  simp only; omega

theorem sumCell_append_neg (D E : List (Int × U32)) :
    sumCell (D ++ negKeys E) = ⟨(sumCell D).count - (sumCell E).count,
      (sumCell D).keySum ^^^ (sumCell E).keySum, (sumCell D).keyCheck ^^^ (sumCell E).keyCheck⟩ := by
  induction D with
  | nil =>
    simp only [List.nil_append]
    induction E with
    | nil => simp [negKeys, sumCell, Cell.zero]
    | cons e E ih =>
      obtain ⟨s, k⟩ := e
      simp only [negKeys, List.map_cons, sumCell] at *
      rw [ih]
      simp only [Cell.add, Cell.zero, Cell.mk.injEq]
      refine ⟨by omega, ?_, ?_⟩ <;> simp
  | cons e D ih =>
    obtain ⟨s, k⟩ := e
    simp only [List.cons_append, sumCell]
    rw [ih]
    simp only [Cell.add, Cell.mk.injEq]
    refine ⟨by omega, ?_, ?_⟩ <;> ac_rfl

theorem inCell_append_neg (b : Nat) (D E : List (Int × U32)) (j : Nat) :
    inCell b (D ++ negKeys E) j = inCell b D j ++ negKeys (inCell b E j) := by
  simp only [inCell, List.filter_append, negKeys, List.filter_map]
  rfl

theorem cell_eq_of_sub_zero {l r : Cell}
    (h : (⟨l.count - r.count, l.keySum ^^^ r.keySum, l.keyCheck ^^^ r.keyCheck⟩ : Cell) = Cell.zero) : l = r := by
  cases l; cases r
  simp only [Cell.zero, Cell.mk.injEq, BitVec.xor_eq_zero_iff] at *
  exact ⟨by omega, h.2.1, h.2.2⟩

theorem tableOf_eq_of_net {b : Nat} {D E : List (Int × U32)} (hD : Units D) (hE : Units E)
    (h : ∀ k, netOf D k = netOf E k) : tableOf b D = tableOf b E := by
  have hz := sumCell_of_net_zero b _ (D ++ negKeys E) le_rfl
    (by intro e he; rcases List.mem_append.mp he with he | he
        · exact hD e he
        · exact negKeys_units hE e he)
    (by intro k; rw [netOf_append, netOf_negKeys, h]; omega)
  unfold tableOf
  apply List.map_congr_left
  intro j hj
  have hj' : j < 3 * b := List.mem_range.mp hj
  have h1 : (tableOf b (D ++ negKeys E))[j]? = (tableOf b [])[j]? := by rw [hz]
  rw [tableOf_getElem?, tableOf_getElem?, if_pos hj', if_pos hj', inCell_append_neg,
    sumCell_append_neg] at h1
  simp only [Option.some.injEq] at h1
  exact cell_eq_of_sub_zero h1

end PSync
