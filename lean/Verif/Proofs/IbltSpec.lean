import Verif.Proofs.Peel
import Verif.Spec.Iblt
/-!
Connects the IBF specification with the signed-key algebra.
-/
namespace PSync
open Spec

theorem nCells_eq (e : Nat) : nCells e = 3 * buckets e := by
  unfold nCells buckets N_HASH
  simp only
  split <;> omega

theorem buckets_pos {e : Nat} (h : 0 < e) : 0 < buckets e := by unfold buckets; omega

theorem new_eq (e : Nat) : Table.new e = tableOf (buckets e) [] := by
  unfold Table.new tableOf
  rw [nCells_eq]
  apply List.ext_getElem?
  intro j
  by_cases h : j < 3 * buckets e <;> simp [h, inCell, sumCell]

/-- Signed keys of an operation list, newest first. -/
def opKeys (ops : List KeyOp) : List (Int × U32) :=
  ops.reverse.map (fun o => match o with | .ins k => (1, k) | .del k => (-1, k))

theorem opKeys_units (ops : List KeyOp) : Units (opKeys ops) := by
  intro e he
  obtain ⟨o, _, rfl⟩ := List.mem_map.mp he
  cases o <;> simp

theorem netOf_reverse (D : List (Int × U32)) (k : U32) : netOf D.reverse k = netOf D k :=
  netOf_perm (List.reverse_perm D) k

theorem netOf_opKeys (ops : List KeyOp) (k : U32) : netOf (opKeys ops) k = net ops k := by
  unfold opKeys
  rw [List.map_reverse, netOf_reverse]
  induction ops with
  | nil => rfl
  | cons o ops ih => cases o <;> simp [netOf, net, ih]

theorem build_ok {e : Nat} (he : 0 < e) {ops : List KeyOp} {t : Table} (h : build e ops = .ok t) :
    t = tableOf (buckets e) (opKeys ops) := by
  have hb := buckets_pos he
  unfold build at h
  rw [new_eq] at h
  have aux : ∀ (ops : List KeyOp) (D : List (Int × U32)) (t : Table),
      foldRes applyOp
        (tableOf (buckets e) D) ops = .ok t → t = tableOf (buckets e) (opKeys ops ++ D) := by
    intro ops
    induction ops with
    | nil => intro D t h; simp [foldRes] at h; simp [opKeys, h]
    | cons o ops ih =>
      intro D t h
      simp only [foldRes, Res.bind_eq_ok] at h
      obtain ⟨t1, h1, h2⟩ := h
      cases o with
      | ins k =>
        have := ibltUpdate_tableOf_ok hb h1
        subst this
        rw [ih _ _ h2]; simp [opKeys]
      | del k =>
        have := ibltUpdate_tableOf_ok hb h1
        subst this
        rw [ih _ _ h2]; simp [opKeys]
  simpa using aux ops [] t h

theorem build_of {e : Nat} (he : 0 < e) {ops : List KeyOp} (hl : ops.length < 2147483648) :
    build e ops = .ok (tableOf (buckets e) (opKeys ops)) := by
  have hb := buckets_pos he
  unfold build
  rw [new_eq]
  have aux : ∀ (ops : List KeyOp) (D : List (Int × U32)), Units D → D.length + ops.length < 2147483648 →
      foldRes applyOp
        (tableOf (buckets e) D) ops = .ok (tableOf (buckets e) (opKeys ops ++ D)) := by
    intro ops
    induction ops with
    | nil => intro D _ _; simp [foldRes, opKeys]
    | cons o ops ih =>
      intro D hD hl
      simp only [List.length_cons] at hl
      cases o with
      | ins k =>
        simp only [foldRes, applyOp, Table.insert]
        rw [ibltUpdate_tableOf hb hD (by omega) (Or.inl rfl), Res.ok_bind, ih]
        · simp [opKeys]
        · intro x hx
          rcases List.mem_cons.mp hx with rfl | hx
          · simp
          · exact hD x hx
        · simp; omega
      | del k =>
        simp only [foldRes, applyOp, Table.erase]
        rw [ibltUpdate_tableOf hb hD (by omega) (Or.inr rfl), Res.ok_bind, ih]
        · simp [opKeys]
        · intro x hx
          rcases List.mem_cons.mp hx with rfl | hx
          · simp
          · exact hD x hx
        · simp; omega
  simpa using aux ops [] (by intro x hx; simp at hx) (by simpa using hl)

/-- The signed keys `+A`. -/
def posKeys (A : List U32) : List (Int × U32) := A.map (fun k => (1, k))

theorem posKeys_units (A : List U32) : Units (posKeys A) := by
  intro e he; obtain ⟨k, _, rfl⟩ := List.mem_map.mp he; simp

theorem netOf_posKeys {A : List U32} (h : A.Nodup) (k : U32) : netOf (posKeys A) k = if k ∈ A then 1 else 0 := by
  induction A with
  | nil => simp [posKeys, netOf]
  | cons x A ih =>
    rw [List.nodup_cons] at h
    have := ih h.2
    simp only [posKeys, List.map_cons, netOf] at *
    by_cases hx : x = k
    · subst hx; rw [this]; simp [h.1]
    · rw [this]; simp [hx, Ne.symm hx]

theorem holdsSet_table {e : Nat} (he : 0 < e) {t : Table} {A : List U32} (h : HoldsSet e t A) :
    t = tableOf (buckets e) (posKeys A) := by
  obtain ⟨hA, ops, hb, hn⟩ := h
  rw [build_ok he hb]
  apply tableOf_eq_of_net (opKeys_units ops) (posKeys_units A)
  intro k
  rw [netOf_opKeys, netOf_posKeys hA, hn]

/-- The signed difference of two key sets. -/
def diffKeys (A B : List U32) : List (Int × U32) :=
  posKeys (A.filter (fun k => k ∉ B)) ++ negKeys (posKeys (B.filter (fun k => k ∉ A)))

theorem diffKeys_units (A B : List U32) : Units (diffKeys A B) := by
  intro e he
  rcases List.mem_append.mp he with he | he
  · exact posKeys_units _ e he
  · exact negKeys_units (posKeys_units _) e he

theorem mem_diffKeys_pos {A B : List U32} {k : U32} : (1, k) ∈ diffKeys A B ↔ k ∈ A ∧ k ∉ B := by
  simp [diffKeys, posKeys, negKeys]

theorem mem_diffKeys_neg {A B : List U32} {k : U32} : (-1, k) ∈ diffKeys A B ↔ k ∈ B ∧ k ∉ A := by
  simp [diffKeys, posKeys, negKeys]

theorem diffKeys_snd (A B : List U32) : (diffKeys A B).map Prod.snd =
    A.filter (fun k => k ∉ B) ++ B.filter (fun k => k ∉ A) := by
  simp [diffKeys, posKeys, negKeys, Function.comp_def]

theorem diffKeys_snd_nodup {A B : List U32} (hA : A.Nodup) (hB : B.Nodup) :
    ((diffKeys A B).map Prod.snd).Nodup := by
  rw [diffKeys_snd, List.nodup_append]
  refine ⟨hA.filter _, hB.filter _, ?_⟩
  intro a ha b hb heq
  subst heq
  simp at ha hb
  exact hb.2 ha.1

theorem diffKeys_nodup {A B : List U32} (hA : A.Nodup) (hB : B.Nodup) : (diffKeys A B).Nodup :=
  List.Nodup.of_map _ (diffKeys_snd_nodup hA hB)

theorem diffKeys_length (A B : List U32) : (diffKeys A B).length = diffCount A B := by
  simp only [diffKeys, posKeys, negKeys, List.length_append, List.length_map, diffCount]

theorem netOf_diffKeys {A B : List U32} (hA : A.Nodup) (hB : B.Nodup) (k : U32) :
    netOf (diffKeys A B) k = netOf (posKeys A ++ negKeys (posKeys B)) k := by
  unfold diffKeys
  rw [netOf_append, netOf_append, netOf_negKeys, netOf_negKeys, netOf_posKeys (hA.filter _),
    netOf_posKeys (hB.filter _), netOf_posKeys hA, netOf_posKeys hB]
  by_cases h1 : k ∈ A <;> by_cases h2 : k ∈ B <;> simp [h1, h2]

/-- The difference table of two sets. -/
theorem sub_sets {e : Nat} (he : 0 < e) {l r : Table} {A B : List U32} (hl : HoldsSet e l A)
    (hr : HoldsSet e r B) (hlen : diffCount A B < 2147483648) :
    Table.sub l r = .ok (tableOf (buckets e) (diffKeys A B)) := by
  have hz : List.zipWith Cell.sub' (tableOf (buckets e) (posKeys A)) (tableOf (buckets e) (posKeys B))
      = tableOf (buckets e) (diffKeys A B) := by
    rw [zipWith_tableOf]
    apply tableOf_eq_of_net
    · intro x hx
      rcases List.mem_append.mp hx with hx | hx
      · exact posKeys_units _ x hx
      · exact negKeys_units (posKeys_units _) x hx
    · exact diffKeys_units A B
    · intro k; rw [netOf_diffKeys hl.1 hr.1]
  rw [holdsSet_table he hl, holdsSet_table he hr, sub_of (by simp), hz]
  intro j x y hx hy
  have h1 : (List.zipWith Cell.sub' (tableOf (buckets e) (posKeys A)) (tableOf (buckets e) (posKeys B)))[j]?
      = some (x.sub' y) := by rw [List.getElem?_zipWith, hx, hy]
  rw [hz] at h1
  have h2 := tableOf_count_bound (diffKeys_units A B) h1
  rw [diffKeys_length] at h2
  rw [inI32_iff]
  simp only [Cell.sub'] at h2
  omega

theorem mem_cellsOf {e : Nat} {k : U32} {j : Nat} : j ∈ cellsOf e k ↔ hits (buckets e) k j = true := by
  simp only [cellsOf, hits, cellIdx, List.mem_cons, List.not_mem_nil, or_false, Bool.or_eq_true,
    decide_eq_true_iff, Nat.zero_mul, Nat.zero_add, Nat.one_mul, or_assoc]
  constructor
  · rintro (h | h | h)
    · exact Or.inl h.symm
    · exact Or.inr (Or.inl h.symm)
    · exact Or.inr (Or.inr (decide_eq_true h.symm))
  · rintro (h | h | h)
    · exact Or.inl h.symm
    · exact Or.inr (Or.inl h.symm)
    · exact Or.inr (Or.inr (of_decide_eq_true h).symm)

theorem sumCell_eq (P N : List U32) :
    sumCell (posKeys P ++ negKeys (posKeys N)) =
      ⟨(P.length : Int) - N.length, xorAll (P ++ N), xorAll ((P ++ N).map check)⟩ := by
  induction P with
  | nil =>
    induction N with
    | nil => simp [posKeys, negKeys, sumCell, Cell.zero, xorAll]
    | cons k N ih =>
      simp only [posKeys, negKeys, List.map_nil, List.nil_append, List.map_cons, sumCell] at *
      rw [ih]
      simp only [Cell.add, xorAll, List.length_cons, List.length_nil, Cell.mk.injEq]
      exact ⟨by push_cast; omega, trivial, rfl⟩
  | cons k P ih =>
    simp only [posKeys, List.map_cons, List.cons_append, sumCell] at *
    rw [ih]
    simp only [Cell.add, xorAll, List.length_cons, Cell.mk.injEq]
    exact ⟨by push_cast; omega, trivial, rfl⟩

theorem split_signs {D : List (Int × U32)} (h : Units D) :
    D.Perm (posKeys ((D.filter (fun e => e.1 = 1)).map Prod.snd) ++
      negKeys (posKeys ((D.filter (fun e => e.1 ≠ 1)).map Prod.snd))) := by
  have h1 : posKeys ((D.filter (fun e => e.1 = 1)).map Prod.snd) = D.filter (fun e => e.1 = 1) := by
    unfold posKeys
    rw [List.map_map]
    conv_rhs => rw [← List.map_id (D.filter (fun e => e.1 = 1))]
    apply List.map_congr_left
    rintro ⟨s, k⟩ he
    simp at he
    simp [he.2]
  have h2 : negKeys (posKeys ((D.filter (fun e => e.1 ≠ 1)).map Prod.snd)) = D.filter (fun e => e.1 ≠ 1) := by
    unfold posKeys negKeys
    rw [List.map_map, List.map_map]
    conv_rhs => rw [← List.map_id (D.filter (fun e => e.1 ≠ 1))]
    apply List.map_congr_left
    rintro ⟨s, k⟩ he
    have hs := h _ (List.mem_filter.mp he).1
    simp at he hs
    simp
    omega
  rw [h1, h2]
  have := List.filter_append_perm (fun e : Int × U32 => decide (e.1 = 1)) D
  simpa using this.symm

theorem noFalsePure_of_spec {e : Nat} {A B : List U32} (hA : A.Nodup) (hB : B.Nodup)
    (h : NoChecksumCollision e A B) : NoFalsePure (buckets e) (diffKeys A B) := by
  intro j D' hsub
  have hsubD : D'.Sublist (diffKeys A B) := hsub.trans List.filter_sublist
  have hU' : Units D' := fun e he => diffKeys_units A B e (hsubD.subset he)
  have hN' : (D'.map Prod.snd).Nodup := (hsubD.map _).nodup (diffKeys_snd_nodup hA hB)
  have hperm := split_signs hU'
  generalize hP : (D'.filter (fun e => e.1 = 1)).map Prod.snd = P at hperm
  generalize hN : (D'.filter (fun e => e.1 ≠ 1)).map Prod.snd = N at hperm
  have hlen : D'.length = P.length + N.length := by
    have := hperm.length_eq; simpa [posKeys, negKeys] using this
  have hPn : P.Nodup := by rw [← hP]; exact (List.filter_sublist.map _).nodup hN'
  have hNn : N.Nodup := by rw [← hN]; exact (List.filter_sublist.map _).nodup hN'
  have hshare : ShareCell e A B j P N := by
    refine ⟨hPn, hNn, ?_, ?_⟩
    · intro k hk
      have : (1, k) ∈ D' := hperm.mem_iff.mpr (by simp [posKeys, hk])
      have h1 := mem_diffKeys_pos.mp (hsubD.subset this)
      exact ⟨h1.1, h1.2, mem_cellsOf.mpr (List.mem_filter.mp (hsub.subset this)).2⟩
    · intro k hk
      have : (-1, k) ∈ D' := hperm.mem_iff.mpr (by simp [posKeys, negKeys, hk])
      have h1 := mem_diffKeys_neg.mp (hsubD.subset this)
      exact ⟨h1.1, h1.2, mem_cellsOf.mpr (List.mem_filter.mp (hsub.subset this)).2⟩
  obtain ⟨hc1, hc2⟩ := h j P N hshare
  have hsum : sumCell D' = ⟨(P.length : Int) - N.length, xorAll (P ++ N), xorAll ((P ++ N).map check)⟩ := by
    rw [sumCell_perm hperm, sumCell_eq]
  constructor
  · intro hp
    rw [hsum] at hp
    unfold Cell.isPure at hp
    split at hp
    · rename_i hcnt
      rw [hlen]
      exact hc1 hcnt (of_decide_eq_true hp)
    · simp at hp
  · intro hem
    rw [hsum] at hem
    simp only [Cell.isEmpty, Bool.and_eq_true, decide_eq_true_eq] at hem
    have hz := hc2 (by omega) hem.1.2 hem.2
    subst hz
    have : N.length = 0 := by have := hem.1.1; simp only [List.length_nil] at this; omega
    exact List.eq_nil_of_length_eq_zero (by rw [hlen, this]; rfl)

theorem stopSet_of_spec {e : Nat} {A B S : List U32} (h : StoppingSet e A B S) :
    let S' := S.map (fun k => ((if k ∈ A then (1 : Int) else -1), k))
    S'.Nodup ∧ StopSet (buckets e) S' ∧ S' ⊆ diffKeys A B ∧ S' ≠ [] := by
  obtain ⟨hne, hnd, hin, hst⟩ := h
  refine ⟨?_, ?_, ?_, by simpa using hne⟩
  · apply hnd.map; intro a b hab; simpa using (Prod.mk.inj hab).2
  · intro j hl
    obtain ⟨x, hx⟩ := List.length_eq_one_iff.mp hl
    have hmem : x ∈ inCell (buckets e) (S.map (fun k => ((if k ∈ A then (1 : Int) else -1), k))) j := by
      rw [hx]; simp
    obtain ⟨hxS, hxh⟩ := List.mem_filter.mp hmem
    obtain ⟨k, hk, rfl⟩ := List.mem_map.mp hxS
    obtain ⟨k', hk', hne', hj'⟩ := hst k hk j (mem_cellsOf.mpr hxh)
    have : ((if k' ∈ A then (1 : Int) else -1), k') ∈
        inCell (buckets e) (S.map (fun k => ((if k ∈ A then (1 : Int) else -1), k))) j :=
      List.mem_filter.mpr ⟨List.mem_map.mpr ⟨k', hk', rfl⟩, mem_cellsOf.mp hj'⟩
    rw [hx] at this
    exact hne' (Prod.mk.inj (List.mem_singleton.mp this)).2
  · intro x hx
    obtain ⟨k, hk, rfl⟩ := List.mem_map.mp hx
    rcases hin k hk with h1 | h1
    · simp only [h1.1, if_true]; exact mem_diffKeys_pos.mpr h1
    · simp only [h1.2, if_false]; exact mem_diffKeys_neg.mpr h1

theorem spec_of_stopSet {e : Nat} {A B : List U32} (hA : A.Nodup) (hB : B.Nodup) {R : List (Int × U32)}
    (hsub : R.Sublist (diffKeys A B)) (hst : StopSet (buckets e) R) (hne : R ≠ []) :
    StoppingSet e A B (R.map Prod.snd) := by
  have hnd : (R.map Prod.snd).Nodup := (hsub.map _).nodup (diffKeys_snd_nodup hA hB)
  refine ⟨by simpa using hne, hnd, ?_, ?_⟩
  · intro k hk
    obtain ⟨⟨s, k'⟩, hx, rfl⟩ := List.mem_map.mp hk
    have hmem := hsub.subset hx
    rcases diffKeys_units A B _ hmem with hs | hs <;> simp only at hs <;> subst hs
    · exact Or.inl (mem_diffKeys_pos.mp hmem)
    · exact Or.inr (mem_diffKeys_neg.mp hmem)
  · intro k hk j hj
    obtain ⟨x, hx, rfl⟩ := List.mem_map.mp hk
    have h1 : x ∈ inCell (buckets e) R j := List.mem_filter.mpr ⟨hx, mem_cellsOf.mp hj⟩
    have hnd' : (inCell (buckets e) R j).Nodup := (List.Nodup.of_map _ hnd).filter _
    have h2 : ∃ y ∈ inCell (buckets e) R j, y ≠ x := by
      by_contra hno
      push Not at hno
      have h3 := (List.subperm_of_subset hnd' (l₂ := [x]) (fun y hy => by simp [hno y hy])).length_le
      have h4 := List.length_pos_of_mem h1
      exact hst j (by simp at h3; omega)
    obtain ⟨y, hy, hyx⟩ := h2
    obtain ⟨hyR, hyh⟩ := List.mem_filter.mp hy
    refine ⟨y.2, List.mem_map.mpr ⟨y, hyR, rfl⟩, ?_, mem_cellsOf.mpr hyh⟩
    intro heq
    exact hyx (List.inj_on_of_nodup_map hnd hyR hx heq)

/-- What `operator-` returns on two sets, without checksum collision. -/
theorem diff_sets {e : Nat} (he : 0 < e) {l r : Table} {A B : List U32} (hl : HoldsSet e l A)
    (hr : HoldsSet e r B) (hlen : diffCount A B < 2147483647)
    (hS : NoFalsePure (buckets e) (diffKeys A B)) {fuel : Nat} {d : IBLTDiff}
    (h : Table.diff fuel l r = .ok d) :
    ∃ R, R.Sublist (diffKeys A B) ∧ StopSet (buckets e) R ∧ (d.canDecode = true ↔ R = []) ∧
      (∀ k, k ∈ d.positive ↔ (k ∈ A ∧ k ∉ B) ∧ (1, k) ∉ R) ∧
      (∀ k, k ∈ d.negative ↔ (k ∈ B ∧ k ∉ A) ∧ (-1, k) ∉ R) ∧
      Ascending d.positive ∧ Ascending d.negative ∧
      (∀ S, StoppingSet e A B S → R ≠ []) := by
  have hD := diffKeys_length A B
  unfold Table.diff at h
  rw [sub_sets he hl hr (by omega), Res.ok_bind] at h
  obtain ⟨p, hp, hd⟩ := Res.bind_eq_ok.mp h
  simp only [Res.ok.injEq] at hd
  subst hd
  obtain ⟨R, hI, hst, hem⟩ := diff_core (buckets_pos he) (diffKeys_units A B) (diffKeys_nodup hl.1 hr.1)
    (by omega) hS hp
  refine ⟨R, hI.sub, hst, hem, ?_, ?_, hI.ascP, hI.ascN, ?_⟩
  · intro k; rw [hI.pos, mem_diffKeys_pos]
  · intro k; rw [hI.neg, mem_diffKeys_neg]
  · intro S hSS hR
    obtain ⟨h1, h2, h3, h4⟩ := stopSet_of_spec hSS
    have := hI.stop _ h1 h2 h3
    rw [hR] at this
    exact h4 (List.subset_nil.mp this)

/-- With enough budget `operator-` terminates normally. -/
theorem diff_sets_total {e : Nat} (he : 0 < e) {l r : Table} {A B : List U32} (hl : HoldsSet e l A)
    (hr : HoldsSet e r B) (hlen : diffCount A B < 2147483647)
    (hS : NoFalsePure (buckets e) (diffKeys A B)) {fuel : Nat} (hf : diffCount A B < fuel) :
    ∃ d, Table.diff fuel l r = .ok d := by
  have hD := diffKeys_length A B
  have h := peelLoop_inv (buckets_pos he) (diffKeys_units A B) (diffKeys_nodup hl.1 hr.1) (by omega) hS fuel
    (PInv.init (buckets e) (diffKeys A B))
  rcases h.2 with h' | ⟨p, R, h', _, _⟩
  · exact absurd h' (h.1 (by omega))
  · refine ⟨⟨p.table.all Cell.isEmpty, p.positive, p.negative⟩, ?_⟩
    unfold Table.diff
    rw [sub_sets he hl hr (by omega), Res.ok_bind, h', Res.ok_bind]

end PSync
