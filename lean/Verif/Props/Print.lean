import Verif.Spec.Print
import Verif.Props.CommandLine
import Verif.Props.ProducerBase
import Mathlib.Logic.Equiv.List
/-!
Property C102: what is printed of an IBF and of a State.
-/
namespace PSync
open Spec

/-! ### Reading -/

theorem split_at {α : Type} {c : α} : ∀ {a b x y : List α}, c ∉ a → c ∉ b → a ++ c :: x = b ++ c :: y → a = b ∧ x = y
  | [], [], _, _, _, _, h => ⟨rfl, (List.cons.inj h).2⟩
  | [], d :: b, _, _, _, hb, h => absurd (List.cons.inj h).1 fun e => hb (by simp [e])
  | d :: a, [], _, _, ha, _, h => absurd (List.cons.inj h).1 fun e => ha (by simp [← e])
  | d :: a, e :: b, _, _, ha, hb, h => by
    obtain ⟨h1, h2⟩ := List.cons.inj h
    obtain ⟨h3, h4⟩ := split_at (fun hm => ha (List.mem_cons_of_mem _ hm)) (fun hm => hb (List.mem_cons_of_mem _ hm)) h2
    exact ⟨by rw [h1, h3], h4⟩

theorem IsNumber.no {t : Bytes} {n : Nat} (h : IsNumber t n) {b : Byte} (hb : b.toNat < 48) : b ∉ t := by
  intro hm
  have := h.2.1 b hm
  omega

theorem IsInteger.no {t : Bytes} {z : Int} (h : IsInteger t z) {b : Byte} (hb : b.toNat < 45) : b ∉ t := by
  rcases h with ⟨_, h⟩ | ⟨_, r, rfl, h⟩
  · exact IsNumber.no h (by omega)
  · rw [List.mem_cons, not_or]
    exact ⟨by rintro rfl; simp at hb, IsNumber.no h (by omega)⟩

theorem isInteger_unique {t : Bytes} {z z' : Int} (h : IsInteger t z) (h' : IsInteger t z') : z = z' := by
  rcases h with ⟨h1, h2⟩ | ⟨h1, r, rfl, h2⟩ <;> rcases h' with ⟨h3, h4⟩ | ⟨h3, r', h5, h4⟩
  · have := h2.2.2.symm.trans h4.2.2
    omega
  · subst h5
    exact absurd (by simp) (IsNumber.no h2 (b := 45#8) (by decide))
  · exact absurd (by simp) (IsNumber.no h4 (b := 45#8) (by decide))
  · cases h5
    have := h2.2.2.symm.trans h4.2.2
    omega

theorem isRow_unique {r r' : Int × Nat × Bool} {l l' x x' : Bytes} (h : IsRow r l) (h' : IsRow r' l') (he : l ++ x = l' ++ x') :
    r = r' ∧ x = x' := by
  obtain ⟨a, b, ha, hb, rfl⟩ := h
  obtain ⟨a', b', ha', hb', rfl⟩ := h'
  simp only [List.append_assoc, List.cons_append] at he
  obtain ⟨rfl, he1⟩ := split_at (c := 32#8) (IsInteger.no ha (by decide)) (IsInteger.no ha' (by decide)) he
  obtain ⟨rfl, he2⟩ := split_at (c := 32#8) (IsNumber.no hb (by decide)) (IsNumber.no hb' (by decide)) he1
  have h1 := isInteger_unique ha ha'
  have h2 := hb.2.2.symm.trans hb'.2.2
  obtain ⟨z, n, f⟩ := r
  obtain ⟨z', n', f'⟩ := r'
  simp only at h1 h2
  subst h1 h2
  cases f <;> cases f' <;> simp at he2 <;> simp [he2]

theorem isRow_ne_nil {r : Int × Nat × Bool} {l : Bytes} (h : IsRow r l) : l ≠ [] := by
  obtain ⟨a, b, _, _, rfl⟩ := h
  simp

theorem rows_unique : ∀ {rows rows' : List (Int × Nat × Bool)} {ls ls' : List Bytes}, List.Forall₂ IsRow rows ls →
    List.Forall₂ IsRow rows' ls' → ls.flatten = ls'.flatten → rows = rows'
  | [], [], _, _, _, _, _ => rfl
  | [], _ :: _, _, _, .nil, .cons h' _, he => by
    simp only [List.flatten_nil, List.flatten_cons] at he
    exact absurd (List.append_eq_nil_iff.1 he.symm).1 (isRow_ne_nil h')
  | _ :: _, [], _, _, .cons h _, .nil, he => by
    simp only [List.flatten_nil, List.flatten_cons] at he
    exact absurd (List.append_eq_nil_iff.1 he).1 (isRow_ne_nil h)
  | _ :: _, _ :: _, _, _, .cons h t, .cons h' t', he => by
    simp only [List.flatten_cons] at he
    obtain ⟨h1, h2⟩ := isRow_unique h h' he
    rw [h1, rows_unique t t' h2]

/-- C102: what the text shows is determined by the text. -/
theorem c102_unique (text : Bytes) (rows rows' : List (Int × Nat × Bool)) (h : ShowsRows text rows) (h' : ShowsRows text rows') :
    rows = rows' := by
  obtain ⟨hd, ls, h1, h2, rfl⟩ := h
  obtain ⟨hd', ls', h1', h2', he⟩ := h'
  exact rows_unique h2 h2' (split_at h1 h1' he).2

/-! ### Printing -/

theorem intText_integer (z : Int) : IsInteger (intText z) z := by
  unfold intText
  split
  · rename_i h
    exact .inr ⟨h, _, rfl, decimal_number _⟩
  · rename_i h
    exact .inl ⟨by omega, decimal_number _⟩

/-- What is printed of an entry. -/
def cellRow (c : Cell) : Int × Nat × Bool :=
  (c.count, c.keySum.toNat, c.isEmpty || decide (murmur32 N_HASHCHECK c.keySum = c.keyCheck))

theorem print_row (c : Cell) : IsRow (cellRow c) c.print :=
  ⟨intText c.count, decimal c.keySum.toNat, intText_integer _, decimal_number _, rfl⟩

theorem print_rows (t : Table) : ShowsRows t.print (t.map cellRow) := by
  refine ⟨tableHeader.dropLast, t.map Cell.print, by decide, ?_, ?_⟩
  · induction t with
    | nil => exact .nil
    | cons c t ih => exact .cons (print_row c) ih
  · rw [Table.print, List.flatMap_def]
    rfl

theorem check_eq (k : U32) : murmur32 N_HASHCHECK k = check k := by
  unfold check N_HASHCHECK
  rfl

theorem cellRow_flag (K : List U32) : (cellRow ⟨(K.length : Int), xorAll K, xorAll (K.map check)⟩).2.2 = true ↔
    K = [] ∨ check (xorAll K) = xorAll (K.map check) := by
  simp only [cellRow, Cell.isEmpty, Bool.or_eq_true, Bool.and_eq_true, decide_eq_true_eq, check_eq]
  constructor
  · rintro (⟨⟨h1, _⟩, _⟩ | h1)
    · exact .inl (List.length_eq_zero_iff.1 (by omega))
    · exact .inr h1
  · rintro (rfl | h1)
    · exact .inl (by simp [xorAll])
    · exact .inr h1

theorem single_check (k : U32) : check (xorAll [k]) = xorAll ([k].map check) := by
  simp only [List.map_cons, List.map_nil, xorAll, BitVec.zero_xor]

theorem few_check : ∀ K : List U32, K.length ≤ 1 → K = [] ∨ check (xorAll K) = xorAll (K.map check)
  | [], _ => .inl rfl
  | [k], _ => .inr (single_check k)

theorem inCell_filter (e : Nat) (ks : List U32) (j : Nat) :
    inCell (buckets e) (posKeys ks) j = posKeys (ks.filter (fun k => decide (j ∈ cellsOf e k))) := by
  induction ks with
  | nil => rfl
  | cons k ks ih =>
    unfold inCell posKeys at ih ⊢
    rw [List.map_cons, List.filter_cons, List.filter_cons, ih]
    by_cases h : j ∈ cellsOf e k
    · rw [if_pos (mem_cellsOf.1 h), if_pos (decide_eq_true h), List.map_cons]
    · rw [if_neg (fun hh => h (mem_cellsOf.2 hh)), if_neg (by rw [decide_eq_true_eq]; exact h)]

theorem sumCell_posKeys (K : List U32) : sumCell (posKeys K) = ⟨(K.length : Int), xorAll K, xorAll (K.map check)⟩ := by
  have hs := sumCell_eq K []
  have h1 : posKeys K ++ negKeys (posKeys []) = posKeys K := List.append_nil _
  rw [h1, List.append_nil] at hs
  rw [hs, List.length_nil, Int.ofNat_zero, Int.sub_zero]

/-- C102: the text of an IBF that was filled with the keys `ks` has a line for each of its entries; line j shows how many of the keys
are stored in the entry j, their exclusive or, and "true" if there is none or the exclusive or of their check values is the check value
of that; so always for a single key. -/
theorem c102_shows (e : Nat) (he : 0 < e) (ks : List U32) (t : Table) (h : build e (ks.map KeyOp.ins) = .ok t) :
    ∃ rows, ShowsRows t.print rows ∧ rows.length = 3 * buckets e ∧ ∀ j row, rows[j]? = some row →
      ∀ K, K = ks.filter (fun k => decide (j ∈ cellsOf e k)) →
        row.1 = (K.length : Int) ∧ row.2.1 = (xorAll K).toNat ∧
        (row.2.2 = true ↔ K = [] ∨ check (xorAll K) = xorAll (K.map check)) ∧ (K.length ≤ 1 → row.2.2 = true) := by
  have ht : t = tableOf (buckets e) (posKeys ks) := by
    rw [build_ok he h]
    apply tableOf_perm
    have : opKeys (ks.map KeyOp.ins) = (posKeys ks).reverse := by
      simp [opKeys, posKeys, Function.comp_def]
    rw [this]
    exact List.reverse_perm _
  refine ⟨_, print_rows t, by rw [ht, List.length_map, tableOf_length], fun j row hj K hK => ?_⟩
  rw [ht, List.getElem?_map, tableOf_getElem?] at hj
  split at hj
  · rw [Option.map_some, Option.some.injEq, inCell_filter, ← hK, sumCell_posKeys] at hj
    have h1 := cellRow_flag K
    rw [hj] at h1
    refine ⟨by rw [← hj]; rfl, by rw [← hj]; rfl, h1, fun hl => h1.2 (few_check K hl)⟩
  · cases hj

/-- C102 for an IBF from which keys were erased too, and which is left with the set `A`. -/
theorem c102_set (e : Nat) (he : 0 < e) (A : List U32) (t : Table) (h : HoldsSet e t A) :
    ∃ rows, ShowsRows t.print rows ∧ rows.length = 3 * buckets e ∧ ∀ j row, rows[j]? = some row →
      ∀ K, K = A.filter (fun k => decide (j ∈ cellsOf e k)) →
        row.1 = (K.length : Int) ∧ row.2.1 = (xorAll K).toNat ∧
        (row.2.2 = true ↔ K = [] ∨ check (xorAll K) = xorAll (K.map check)) ∧ (K.length ≤ 1 → row.2.2 = true) :=
  c102_shows e he A t (build_of_holds he h)

/-- C102: IBFs with the same text, whatever they hold, have the same counts and key sums. -/
theorem c102_same (t t' : Table) (h : t.print = t'.print) :
    t.map (fun c => (c.count, c.keySum)) = t'.map (fun c => (c.count, c.keySum)) := by
  have h1 : t.map cellRow = t'.map cellRow := c102_unique _ _ _ (print_rows t) (h ▸ print_rows t')
  have h2 := congrArg (List.map fun r : Int × Nat × Bool => (r.1, BitVec.ofNat 32 r.2.1)) h1
  simpa [cellRow, Function.comp_def] using h2

/-! ### Names -/

theorem joinText_inj : ∀ {as bs : List Bytes}, (∀ a ∈ as, 44#8 ∉ a ∧ a ≠ []) → (∀ b ∈ bs, 44#8 ∉ b ∧ b ≠ []) →
    joinText as = joinText bs → as = bs
  | [], [], _, _, _ => rfl
  | [], [b], _, hb, h => absurd h.symm (hb b (by simp)).2
  | [], b :: c :: r, _, _, h => by simp [joinText] at h
  | [a], [], ha, _, h => absurd h (ha a (by simp)).2
  | a :: c :: r, [], _, _, h => by simp [joinText] at h
  | [a], [b], _, _, h => by simpa [joinText] using h
  | [a], b :: c :: r, ha, _, h => absurd (show 44#8 ∈ a by rw [show a = _ from h]; simp [joinText]) (ha a (by simp)).1
  | a :: c :: r, [b], _, hb, h => absurd (show 44#8 ∈ b by rw [show b = _ from h.symm]; simp [joinText]) (hb b (by simp)).1
  | a :: c :: r, b :: d :: q, ha, hb, h => by
    simp only [joinText] at h
    obtain ⟨h1, h2⟩ := split_at (ha a (by simp)).1 (hb b (by simp)).1 h
    have h3 := joinText_inj (fun x hx => ha x (List.mem_cons_of_mem _ hx)) (fun x hx => hb x (List.mem_cons_of_mem _ hx))
      (List.cons.inj h2).2
    rw [h1, h3]

/-- C102: if different names are printed differently, never as nothing and without commas, the text of a State tells its names and their
order. -/
theorem c102_state (uri : Name → Bytes) (hi : ∀ a b, uri a = uri b → a = b) (hc : ∀ a, 44#8 ∉ uri a ∧ uri a ≠ [])
    (ns ns' : List Name) (h : printNames uri ns = printNames uri ns') : ns = ns' := by
  unfold printNames at h
  have h1 := List.append_cancel_right (List.cons.inj h).2
  have h2 := joinText_inj (fun a ha => by obtain ⟨n, _, rfl⟩ := List.mem_map.1 ha; exact hc n)
    (fun a ha => by obtain ⟨n, _, rfl⟩ := List.mem_map.1 ha; exact hc n) h1
  exact List.map_injective_iff.2 (fun a b => hi a b) h2

/-! ### Bloom filters -/

theorem isHexDigit_unique {c : Byte} {d e : Nat} (h : IsHexDigit c d) (h' : IsHexDigit c e) : d = e := by
  unfold IsHexDigit at h h'
  omega

theorem hexChar_is {d : Nat} (h : d < 16) : IsHexDigit (hexChar d) d := by
  unfold hexChar
  split
  · exact .inl ⟨‹_›, by rw [BitVec.toNat_ofNat]; omega⟩
  · exact .inr ⟨by omega, h, by rw [BitVec.toNat_ofNat]; omega⟩

/-- C102: the printed Bloom filter has two hexadecimal digits for each byte of its table. -/
theorem c102_bloom (b : Bloom) : ShowsHex b.print b.bits := by
  refine ⟨b.bits.map fun x => [hexChar (x.toNat / 16), hexChar (x.toNat % 16)], by rw [Bloom.print, List.flatMap_def], ?_⟩
  refine List.forall₂_map_right_iff.2 (List.forall₂_same.2 fun x _ => ?_)
  have hx : x.toNat < 256 := x.isLt
  exact ⟨_, _, x.toNat / 16, x.toNat % 16, rfl, hexChar_is (by omega), hexChar_is (by omega), by omega⟩

/-- C102: a text shows at most one list of bytes in this way. -/
theorem c102_bloom_unique {t : Bytes} {as bs : Bytes} (ha : ShowsHex t as) (hb : ShowsHex t bs) : as = bs := by
  obtain ⟨ls, rfl, hl⟩ := ha
  obtain ⟨ms, he, hm⟩ := hb
  induction hl generalizing bs ms with
  | nil =>
    cases hm with
    | nil => rfl
    | cons h _ => obtain ⟨x, y, _, _, rfl, _⟩ := h; simp at he
  | cons h _ ih =>
    obtain ⟨x, y, d, e, rfl, hx, hy, hv⟩ := h
    cases hm with
    | nil => simp at he
    | cons h' hm' =>
      obtain ⟨x', y', d', e', rfl, hx', hy', hv'⟩ := h'
      simp only [List.flatten_cons, List.cons_append, List.nil_append, List.cons.injEq] at he
      obtain ⟨rfl, rfl, he⟩ := he
      refine List.cons_eq_cons.2 ⟨BitVec.eq_of_toNat_eq ?_, ih _ he hm'⟩
      rw [hv, hv', isHexDigit_unique hx hx', isHexDigit_unique hy hy']

/-- C102: Bloom filters with the same text have the same table, so they contain the same names if they were made with the same
parameters. -/
theorem c102_bloom_same (a b : Bloom) : a.print = b.print ↔ a.bits = b.bits :=
  ⟨fun h => c102_bloom_unique (h ▸ c102_bloom a) (c102_bloom b), fun h => by rw [Bloom.print, Bloom.print, h]⟩

/-- Non-vacuity for `c102_bloom`: the bytes 0 and 175 are printed as "00af". -/
example : (Bloom.print ⟨[1#32], [0#8, 175#8], 16, 1, 0#64⟩) = [48#8, 48#8, 97#8, 102#8] := by decide

/-- Non-vacuity for C102: an IBF of capacity 4 that holds the keys 7 and 9; both are in the entries 1 and 4. -/
example : ∃ t, build 4 ([7#32, 9#32].map KeyOp.ins) = .ok t ∧ ShowsRows t.print
    [(0, 0, true), (2, 14, false), (1, 9, true), (1, 7, true), (2, 14, false), (0, 0, true)] := by
  have h : (build 4 ([7#32, 9#32].map KeyOp.ins)).get?.map (fun t => t.map cellRow) =
      some [(0, 0, true), (2, 14, false), (1, 9, true), (1, 7, true), (2, 14, false), (0, 0, true)] := by decide +kernel
  obtain ⟨t, h1, h2⟩ := Res.of_get? h
  exact ⟨t, h1, h2 ▸ print_rows t⟩

/-- Non-vacuity for `c102_state`: a way to print names that is unambiguous and has no commas; two names are printed. -/
example : ∃ uri : Name → Bytes, (∀ a b, uri a = uri b → a = b) ∧ (∀ a, 44#8 ∉ uri a ∧ uri a ≠ []) ∧
    (printNames uri [pA, pB]).length ≥ 6 := by
  have hf : ∃ f : Name → Nat, ∀ a b, f a = f b → a = b := by
    refine ⟨fun n => Encodable.encode (n.map fun c => (c.type, c.value.map BitVec.toNat)), fun a b h => ?_⟩
    refine List.map_injective_iff.2 ?_ (Encodable.encode_injective h)
    rintro ⟨t, v⟩ ⟨t', v'⟩ hc
    simp only [Prod.mk.injEq] at hc
    obtain ⟨rfl, hv⟩ := hc
    rw [List.map_injective_iff.2 (fun x y => BitVec.eq_of_toNat_eq) hv]
  obtain ⟨f, hf⟩ := hf
  refine ⟨fun n => 47#8 :: List.replicate (f n) 97#8, ?_, ?_, ?_⟩
  · intro a b h
    have h1 := congrArg List.length h
    simp only [List.length_cons, List.length_replicate] at h1
    exact hf a b (by omega)
  · intro a
    simp [List.mem_replicate]
  · simp only [List.map_cons, List.map_nil, printNames, joinText, List.length_cons, List.length_append, List.length_replicate]
    omega

end PSync
