import Verif.Proofs.Peel
/-!
Facts about `operator-` on arbitrary tables (also ones that no honest node builds).
-/
namespace PSync

/-! ### Mirror images -/

def Cell.neg (c : Cell) : Cell := ⟨-c.count, c.keySum, c.keyCheck⟩

def negT (t : Table) : Table := t.map Cell.neg

def Peel.mirror (p : Peel) : Peel := ⟨negT p.table, p.negative, p.positive, p.nErased⟩

theorem isPure_neg (c : Cell) : c.neg.isPure = c.isPure := by
  obtain ⟨n, a, h⟩ := c
  unfold Cell.isPure Cell.neg
  by_cases h1 : n = 1 ∨ n = -1
  · rw [if_pos h1, if_pos (by simp only; omega)]
  · rw [if_neg h1, if_neg (by simp only; omega)]

theorem isEmpty_neg (c : Cell) : c.neg.isEmpty = c.isEmpty := by
  obtain ⟨n, a, h⟩ := c
  unfold Cell.isEmpty Cell.neg
  have h1 : decide (-n = 0) = decide (n = 0) := by
    by_cases h1 : n = 0
    · simp [h1]
    · simp [h1]
  simp only [h1]

theorem neg_add (c : Cell) (s : Int) (k : U32) : c.neg.add (-s) k = (c.add s k).neg := by
  obtain ⟨n, a, h⟩ := c
  unfold Cell.add Cell.neg
  generalize keyHash k = x
  congr 1
  simp only
  omega

theorem addKey_negT (b : Nat) (t : Table) (s : Int) (k : U32) :
    addKey b (negT t) (-s) k = negT (addKey b t s k) := by
  apply List.ext_getElem?
  intro j
  rw [addKey_getElem?]
  unfold negT
  rw [List.getElem?_map, List.getElem?_map, addKey_getElem?]
  cases t[j]? with
  | none => simp only [Option.map_none]
  | some c =>
    simp only [Option.map_some]
    by_cases hh : hits b k j = true
    · rw [if_pos hh, if_pos hh, neg_add]
    · rw [if_neg hh, if_neg hh]

theorem isPure_count {c : Cell} (h : c.isPure = true) : c.count = 1 ∨ c.count = -1 := by
  unfold Cell.isPure at h
  split at h
  · assumption
  · simp at h

theorem peelAt_length {b : Nat} (hb : 0 < b) {p p' : Peel} {j : Nat} (hl : p.table.length = 3 * b)
    (h : peelAt p j = .ok p') : p'.table.length = 3 * b := by
  unfold peelAt at h
  cases hc : p.table[j]? with
  | none => simp only [hc, Res.ok.injEq] at h; rw [← h]; exact hl
  | some c =>
    simp only [hc] at h
    by_cases hp : c.isPure = true
    · rw [if_pos hp] at h
      obtain ⟨t1, e1, h1⟩ := Res.bind_eq_ok.mp h
      have := (ibltUpdate_ok hb hl e1).1
      have hlt : t1.length = 3 * b := by rw [this, addKey_length, hl]
      split at h1 <;> (simp only [Res.ok.injEq] at h1; rw [← h1]; exact hlt)
    · rw [if_neg hp] at h
      simp only [Res.ok.injEq] at h; rw [← h]; exact hl

theorem peelAt_mirror {b : Nat} (hb : 0 < b) {p p1 p2 : Peel} {j : Nat} (hl : p.table.length = 3 * b)
    (h1 : peelAt p j = .ok p1) (h2 : peelAt p.mirror j = .ok p2) : p2 = p1.mirror := by
  unfold peelAt at h1 h2
  have hm : p.mirror.table[j]? = p.table[j]?.map Cell.neg := by simp [Peel.mirror, negT]
  rw [hm] at h2
  cases hc : p.table[j]? with
  | none => simp [hc] at h1 h2; rw [← h1, ← h2]
  | some c =>
    simp only [hc, Option.map_some] at h1 h2
    rw [isPure_neg] at h2
    by_cases hp : c.isPure = true
    · simp only [hp, if_true] at h1 h2
      obtain ⟨t1, e1, h1⟩ := Res.bind_eq_ok.mp h1
      obtain ⟨t2, e2, h2⟩ := Res.bind_eq_ok.mp h2
      have hl' : p.mirror.table.length = 3 * b := by simp [Peel.mirror, negT, hl]
      have f1 := (ibltUpdate_ok hb hl e1).1
      have f2 := (ibltUpdate_ok hb hl' e2).1
      have f3 : t2 = negT t1 := by
        rw [f1, f2]
        show addKey b (negT p.table) (-(-c.count)) c.keySum = _
        rw [addKey_negT]
      rcases isPure_count hp with hc1 | hc1
      · rw [if_pos hc1] at h1
        rw [if_neg (by simp [Cell.neg, hc1])] at h2
        simp only [Res.ok.injEq] at h1 h2
        rw [← h1, ← h2, f3]
        rfl
      · rw [if_neg (by omega)] at h1
        rw [if_pos (by simp [Cell.neg, hc1])] at h2
        simp only [Res.ok.injEq] at h1 h2
        rw [← h1, ← h2, f3]
        rfl
    · rw [if_neg hp] at h1 h2
      simp only [Res.ok.injEq] at h1 h2
      rw [← h1, ← h2]

theorem peelFold_mirror {b : Nat} (hb : 0 < b) (js : List Nat) : ∀ {p p1 p2 : Peel},
    p.table.length = 3 * b → foldRes peelAt p js = .ok p1 → foldRes peelAt p.mirror js = .ok p2 →
    p2 = p1.mirror ∧ p1.table.length = 3 * b := by
  induction js with
  | nil =>
    intro p p1 p2 hl h1 h2
    simp only [foldRes, Res.ok.injEq] at h1 h2
    rw [← h1, ← h2]; exact ⟨rfl, hl⟩
  | cons j js ih =>
    intro p p1 p2 hl h1 h2
    simp only [foldRes, Res.bind_eq_ok] at h1 h2
    obtain ⟨q1, e1, h1⟩ := h1
    obtain ⟨q2, e2, h2⟩ := h2
    have := peelAt_mirror hb hl e1 e2
    subst this
    exact ih (peelAt_length hb hl e1) h1 h2

theorem peelLoop_mirror {b : Nat} (hb : 0 < b) (fuel : Nat) : ∀ {p p1 p2 : Peel},
    p.table.length = 3 * b → peelLoop fuel p = .ok p1 → peelLoop fuel p.mirror = .ok p2 →
    p2 = p1.mirror := by
  induction fuel with
  | zero => intro p p1 p2 _ h1; simp [peelLoop] at h1
  | succ fuel ih =>
    intro p p1 p2 hl h1 h2
    simp only [peelLoop, Res.bind_eq_ok] at h1 h2
    obtain ⟨q1, e1, h1⟩ := h1
    obtain ⟨q2, e2, h2⟩ := h2
    unfold peelPass at e1 e2
    have hlen : p.mirror.table.length = p.table.length := by simp [Peel.mirror, negT]
    rw [hlen] at e2
    obtain ⟨hq, hl'⟩ := peelFold_mirror hb (List.range p.table.length) (p := { p with nErased := 0 }) hl e1 e2
    subst hq
    by_cases hz : q1.nErased > 0
    · rw [if_pos hz] at h1
      rw [if_pos (by simpa [Peel.mirror] using hz)] at h2
      exact ih hl' h1 h2
    · rw [if_neg hz] at h1
      rw [if_neg (by simpa [Peel.mirror] using hz)] at h2
      simp only [Res.ok.injEq] at h1 h2
      rw [← h1, ← h2]

theorem zipWith_sub_neg (l r : Table) :
    List.zipWith Cell.sub' r l = negT (List.zipWith Cell.sub' l r) := by
  unfold negT
  rw [List.map_zipWith, List.zipWith_comm]
  congr 1
  funext x y
  simp only [Cell.sub', Cell.neg, Cell.mk.injEq]
  exact ⟨by omega, BitVec.xor_comm _ _, BitVec.xor_comm _ _⟩

theorem diff_swap {b : Nat} (hb : 0 < b) {l r : Table} (hl : l.length = 3 * b) {fuel : Nat}
    {d d' : IBLTDiff} (h : Table.diff fuel l r = .ok d) (h' : Table.diff fuel r l = .ok d') :
    d' = ⟨d.canDecode, d.negative, d.positive⟩ := by
  unfold Table.diff at h h'
  obtain ⟨t, ht, h⟩ := Res.bind_eq_ok.mp h
  obtain ⟨t', ht', h'⟩ := Res.bind_eq_ok.mp h'
  obtain ⟨p, hp, h⟩ := Res.bind_eq_ok.mp h
  obtain ⟨p', hp', h'⟩ := Res.bind_eq_ok.mp h'
  simp only [Res.ok.injEq] at h h'
  obtain ⟨hlr, ht⟩ := sub_ok ht
  have ht' := (sub_ok ht').2
  rw [zipWith_sub_neg, ← ht] at ht'
  subst ht'
  have := peelLoop_mirror hb fuel (p := ⟨t, [], [], 0⟩) (by simp [ht, ← hlr, hl]) hp hp'
  subst this
  rw [← h, ← h']
  simp only [Peel.mirror, IBLTDiff.mk.injEq, and_true]
  simp only [negT, List.all_map]
  congr 1
  funext c
  exact isEmpty_neg c

/-! ### Nothing peeled means nothing changed -/

def Peel.Found (p : Peel) : Prop := p.positive ≠ [] ∨ p.negative ≠ []

theorem peelAt_found {p p' : Peel} {j : Nat} (h : peelAt p j = .ok p') : p' = p ∨ p'.Found := by
  unfold peelAt at h
  cases hc : p.table[j]? with
  | none => left; simp only [hc, Res.ok.injEq] at h; exact h.symm
  | some c =>
    simp only [hc] at h
    by_cases hp : c.isPure = true
    · right
      rw [if_pos hp] at h
      obtain ⟨t1, e1, h1⟩ := Res.bind_eq_ok.mp h
      split at h1 <;> (simp only [Res.ok.injEq] at h1; rw [← h1])
      · exact Or.inl (setInsert_ne_nil _ _)
      · exact Or.inr (setInsert_ne_nil _ _)
    · left; rw [if_neg hp] at h; simp only [Res.ok.injEq] at h; exact h.symm

theorem peelAt_keeps {p p' : Peel} {j : Nat} (h : peelAt p j = .ok p') (hf : p.Found) : p'.Found := by
  rcases peelAt_found h with rfl | h
  · exact hf
  · exact h

theorem peelFold_found (js : List Nat) : ∀ {p p' : Peel}, foldRes peelAt p js = .ok p' →
    (p' = p ∨ p'.Found) ∧ (p.Found → p'.Found) := by
  induction js with
  | nil => intro p p' h; simp only [foldRes, Res.ok.injEq] at h; subst h; exact ⟨Or.inl rfl, id⟩
  | cons j js ih =>
    intro p p' h
    simp only [foldRes, Res.bind_eq_ok] at h
    obtain ⟨q, e, h⟩ := h
    have := ih h
    rcases peelAt_found e with rfl | hq
    · exact this
    · exact ⟨Or.inr (this.2 hq), fun _ => this.2 hq⟩

theorem peelLoop_found (fuel : Nat) : ∀ {p p' : Peel}, peelLoop fuel p = .ok p' →
    (p'.table = p.table ∨ p'.Found) ∧ (p.Found → p'.Found) := by
  induction fuel with
  | zero => intro p p' h; simp [peelLoop] at h
  | succ fuel ih =>
    intro p p' h
    simp only [peelLoop, Res.bind_eq_ok] at h
    obtain ⟨q, e, h⟩ := h
    have h1 := peelFold_found _ e
    have hq : q.table = p.table ∨ q.Found := by
      rcases h1.1 with rfl | hf
      · exact Or.inl rfl
      · exact Or.inr hf
    by_cases hz : q.nErased > 0
    · rw [if_pos hz] at h
      have h2 := ih h
      refine ⟨?_, fun hf => h2.2 (h1.2 hf)⟩
      rcases hq with hq | hq
      · rw [← hq]; exact h2.1
      · exact Or.inr (h2.2 hq)
    · rw [if_neg hz] at h
      simp only [Res.ok.injEq] at h
      subst h
      exact ⟨hq, h1.2⟩

theorem foldRes_fix {σ ι : Type} {f : σ → ι → Res σ} {s : σ} {l : List ι} (h : ∀ x ∈ l, f s x = .ok s) :
    foldRes f s l = .ok s := by
  induction l with
  | nil => rfl
  | cons x l ih =>
    simp only [foldRes]
    rw [h x List.mem_cons_self, Res.ok_bind]
    exact ih (fun y hy => h y (List.mem_cons_of_mem _ hy))

theorem foldRes_append {σ ι : Type} (f : σ → ι → Res σ) (s : σ) (l m : List ι) :
    foldRes f s (l ++ m) = Res.bind (foldRes f s l) (fun s => foldRes f s m) := by
  induction l generalizing s with
  | nil => rfl
  | cons x l ih =>
    simp only [List.cons_append, foldRes]
    cases f s x <;> simp [ih]

theorem isEmpty_iff (c : Cell) : c.isEmpty = true ↔ c = Cell.zero := by
  cases c; simp [Cell.isEmpty, Cell.zero, and_assoc]

theorem all_empty_zip {l r : Table} (hlr : l.length = r.length)
    (h : (List.zipWith Cell.sub' l r).all Cell.isEmpty = true) : l = r := by
  induction l generalizing r with
  | nil => cases r <;> simp at hlr ⊢
  | cons x l ih =>
    cases r with
    | nil => simp at hlr
    | cons y r =>
      simp only [List.zipWith_cons_cons, List.all_cons, Bool.and_eq_true, isEmpty_iff] at h
      rw [cell_eq_of_sub_zero h.1, ih (by simpa using hlr) h.2]

theorem zipWith_self_zero (t : Table) : List.zipWith Cell.sub' t t = List.replicate t.length Cell.zero := by
  induction t with
  | nil => rfl
  | cons c t ih => simp [List.replicate_succ, Cell.sub', Cell.zero]

theorem diff_self (fuel : Nat) (t : Table) : Table.diff (fuel + 1) t t = .ok ⟨true, [], []⟩ := by
  have hs : Table.sub t t = .ok (List.replicate t.length Cell.zero) := by
    rw [sub_of rfl, zipWith_self_zero]
    intro j x y hx hy
    rw [hx] at hy; cases hy
    simp [inI32]
  have hp : peelPass ⟨List.replicate t.length Cell.zero, [], [], 0⟩ =
      .ok ⟨List.replicate t.length Cell.zero, [], [], 0⟩ := by
    unfold peelPass
    apply foldRes_fix
    intro j _
    unfold peelAt
    simp only [List.getElem?_replicate]
    split
    · rfl
    · rename_i c hc
      split at hc
      · cases hc; simp [Cell.zero, Cell.isPure]
      · simp at hc
  unfold Table.diff
  simp only [hs, Res.ok_bind, peelLoop, hp]
  simp [Cell.zero, Cell.isEmpty]

theorem diff_nothing {fuel : Nat} {l r : Table} {d : IBLTDiff} (h : Table.diff fuel l r = .ok d) :
    (d.canDecode = true ∧ d.positive = [] ∧ d.negative = []) ↔ l = r := by
  constructor
  · rintro ⟨h1, h2, h3⟩
    unfold Table.diff at h
    obtain ⟨t, ht, h⟩ := Res.bind_eq_ok.mp h
    obtain ⟨p, hp, h⟩ := Res.bind_eq_ok.mp h
    simp only [Res.ok.injEq] at h
    subst h
    obtain ⟨hlr, ht⟩ := sub_ok ht
    rcases (peelLoop_found fuel hp).1 with h4 | h4
    · simp only at h1 h4
      rw [h4, ht] at h1
      exact all_empty_zip hlr h1
    · rcases h4 with h4 | h4
      · exact absurd h2 h4
      · exact absurd h3 h4
  · rintro rfl
    cases fuel with
    | zero =>
      unfold Table.diff at h
      obtain ⟨t, ht, h⟩ := Res.bind_eq_ok.mp h
      simp [peelLoop] at h
    | succ fuel =>
      rw [diff_self] at h
      simp only [Res.ok.injEq] at h
      subst h; simp

/-! ### A table on which peeling never ends -/

/-- Cell `j` holds the key `k`, everything else is empty. -/
def trapTable (n j : Nat) (k : U32) : Table :=
  (List.replicate n Cell.zero).set j ⟨1, k, keyHash k⟩

theorem trap_get {n j : Nat} {k : U32} (i : Nat) :
    (trapTable n j k)[i]? = if i < n then some (if i = j then ⟨1, k, keyHash k⟩ else Cell.zero) else none := by
  unfold trapTable
  rw [getElem?_set_ite]
  simp only [List.length_replicate, List.getElem?_replicate]
  by_cases h : i < n
  · by_cases h2 : j = i
    · simp [h2, h]
    · simp [h2, h, Ne.symm h2]
  · simp [h]

theorem trap_length (n j : Nat) (k : U32) : (trapTable n j k).length = n := by simp [trapTable]

theorem keyPure (s : Int) (k : U32) (hs : s = 1 ∨ s = -1) : (⟨s, k, keyHash k⟩ : Cell).isPure = true := by
  simp [Cell.isPure, hs, keyHash]

theorem zero_not_pure : Cell.zero.isPure = false := by simp [Cell.zero, Cell.isPure]

theorem addKey_undo (b : Nat) (t : Table) (s : Int) (k : U32) : addKey b (addKey b t s k) (-s) k = t := by
  apply List.ext_getElem?
  intro j
  rw [addKey_getElem?, addKey_getElem?]
  cases t[j]? with
  | none => simp only [Option.map_none]
  | some c =>
    simp only [Option.map_some]
    by_cases hh : hits b k j = true
    · rw [if_pos hh, if_pos hh, add_cancel]
    · rw [if_neg hh, if_neg hh]

/-- Meeting the trap. -/
theorem trap_step1 {b j : Nat} {k : U32} (hb : 0 < b) (hj : j < 3 * b) (hnj : hits b k j = false) {p : Peel}
    (hp : p.table = trapTable (3 * b) j k) :
    ∃ p', peelAt p j = .ok p' ∧ p'.table = addKey b (trapTable (3 * b) j k) (-1) k ∧
      p'.nErased = p.nErased + 1 := by
  have hc : p.table[j]? = some ⟨1, k, keyHash k⟩ := by rw [hp, trap_get]; simp [hj]
  have hu : ibltUpdate p.table (-1) k = .ok (addKey b p.table (-1) k) := by
    apply ibltUpdate_of hb (by rw [hp, trap_length])
    intro i c hi hh
    rw [hp, trap_get] at hi
    split at hi
    · have hij : i ≠ j := by rintro rfl; rw [hnj] at hh; simp at hh
      simp only [hij, if_false, Option.some.injEq] at hi
      subst hi; simp [Cell.zero, inI32]
    · simp at hi
  refine ⟨⟨addKey b p.table (-1) k, setInsert p.positive k, p.negative, p.nErased + 1⟩, ?_, ?_, rfl⟩
  · unfold peelAt; simp only [hc, keyPure 1 k (Or.inl rfl), if_true, hu, Res.ok_bind]
  · simp only [hp]

/-- Undoing it at one of the key's own cells. -/
theorem trap_step2 {b j i : Nat} {k : U32} (hb : 0 < b) (hi : i < 3 * b) (hij : i ≠ j)
    (hni : hits b k i = true) (hnj : hits b k j = false) {p : Peel}
    (hp : p.table = addKey b (trapTable (3 * b) j k) (-1) k) :
    ∃ p', peelAt p i = .ok p' ∧ p'.table = trapTable (3 * b) j k ∧ p'.nErased = p.nErased + 1 := by
  have hc : p.table[i]? = some ⟨-1, k, keyHash k⟩ := by
    rw [hp, addKey_getElem?, trap_get]
    simp [hi, hij, hni, Cell.zero, Cell.add]
  have hu : ibltUpdate p.table 1 k = .ok (addKey b p.table 1 k) := by
    apply ibltUpdate_of hb (by rw [hp, addKey_length, trap_length])
    intro i' c hi' hh
    rw [hp, addKey_getElem?, trap_get] at hi'
    have hij : i' ≠ j := by rintro rfl; rw [hnj] at hh; simp at hh
    by_cases hlt : i' < 3 * b
    · simp only [hlt, if_true, hij, if_false, Option.map_some, hh, Option.some.injEq] at hi'
      subst hi'; simp [Cell.zero, inI32, Cell.add]
    · simp [hlt] at hi'
  refine ⟨⟨addKey b p.table 1 k, p.positive, setInsert p.negative k, p.nErased + 1⟩, ?_, ?_, rfl⟩
  · unfold peelAt
    simp only [hc, keyPure (-1) k (Or.inr rfl), if_true]
    have : (- -1 : Int) = 1 := rfl
    rw [this, hu, Res.ok_bind, if_neg (by omega)]
  · simp only [hp]
    have := addKey_undo b (trapTable (3 * b) j k) (-1) k
    simpa using this

theorem peelAt_skip {p : Peel} {i : Nat} (h : ∀ c, p.table[i]? = some c → c.isPure = false) :
    peelAt p i = .ok p := by
  unfold peelAt
  cases hc : p.table[i]? with
  | none => rfl
  | some c => simp [h c hc]

/-- One whole pass over the trap table reproduces it and reports two erasures. -/
theorem trap_pass {b j i : Nat} {k : U32} (hb : 0 < b) (hji : j < i) (hi : i < 3 * b)
    (hnj : hits b k j = false) (hni : hits b k i = true) (hgap : ∀ m, j < m → m < i → hits b k m = false)
    {p : Peel} (hp : p.table = trapTable (3 * b) j k) :
    ∃ p', peelPass p = .ok p' ∧ p'.table = trapTable (3 * b) j k ∧ p'.nErased = 2 := by
  have hlen : p.table.length = 3 * b := by rw [hp, trap_length]
  have hsplit : List.range (3 * b) = List.range j ++ (j :: (List.range' (j + 1) (i - j - 1) ++
      (i :: List.range' (i + 1) (3 * b - i - 1)))) := by
    rw [List.range_eq_range', List.range_eq_range']
    have e1 : List.range' 0 (3 * b) = List.range' 0 j ++ List.range' (0 + 1 * j) (3 * b - j) := by
      rw [List.range'_append]; congr 1; omega
    have e2 : List.range' (0 + 1 * j) (3 * b - j) = j :: List.range' (j + 1) (3 * b - j - 1) := by
      rw [show 3 * b - j = (3 * b - j - 1) + 1 from by omega, List.range'_succ]; simp
    have e3 : List.range' (j + 1) (3 * b - j - 1) =
        List.range' (j + 1) (i - j - 1) ++ List.range' (j + 1 + 1 * (i - j - 1)) (3 * b - i) := by
      rw [List.range'_append]; congr 1; omega
    have e4 : List.range' (j + 1 + 1 * (i - j - 1)) (3 * b - i) = i :: List.range' (i + 1) (3 * b - i - 1) := by
      rw [show j + 1 + 1 * (i - j - 1) = i from by omega,
        show 3 * b - i = (3 * b - i - 1) + 1 from by omega, List.range'_succ]; simp
    rw [e1, e2, e3, e4]
  unfold peelPass
  rw [hlen, hsplit, foldRes_append]
  have s0 : foldRes peelAt { p with nErased := 0 } (List.range j) = .ok { p with nErased := 0 } := by
    apply foldRes_fix
    intro m hm
    apply peelAt_skip
    intro c hc
    simp only [hp, trap_get] at hc
    have hm' := List.mem_range.mp hm
    rw [if_pos (by omega), if_neg (by omega)] at hc
    cases hc; exact zero_not_pure
  rw [s0, Res.ok_bind]
  simp only [foldRes]
  obtain ⟨p1, h1, t1, n1⟩ := trap_step1 (p := { p with nErased := 0 }) hb (by omega) hnj hp
  rw [h1, Res.ok_bind, foldRes_append]
  have s1 : foldRes peelAt p1 (List.range' (j + 1) (i - j - 1)) = .ok p1 := by
    apply foldRes_fix
    intro m hm
    apply peelAt_skip
    intro c hc
    rw [t1, addKey_getElem?, trap_get] at hc
    have hm' := List.mem_range'_1.mp hm
    rw [if_pos (by omega), if_neg (by omega)] at hc
    simp only [Option.map_some, hgap m (by omega) (by omega)] at hc
    simp at hc
    rw [← hc]; exact zero_not_pure
  rw [s1, Res.ok_bind]
  simp only [foldRes]
  obtain ⟨p2, h2, t2, n2⟩ := trap_step2 (p := p1) hb hi (by omega) hni hnj t1
  rw [h2, Res.ok_bind]
  have s2 : foldRes peelAt p2 (List.range' (i + 1) (3 * b - i - 1)) = .ok p2 := by
    apply foldRes_fix
    intro m hm
    apply peelAt_skip
    intro c hc
    rw [t2, trap_get] at hc
    have hm' := List.mem_range'_1.mp hm
    rw [if_pos (by omega), if_neg (by omega)] at hc
    cases hc; exact zero_not_pure
  exact ⟨p2, s2, t2, by simp at n1; omega⟩

theorem trap_loop {b j i : Nat} {k : U32} (hb : 0 < b) (hji : j < i) (hi : i < 3 * b)
    (hnj : hits b k j = false) (hni : hits b k i = true) (hgap : ∀ m, j < m → m < i → hits b k m = false)
    (fuel : Nat) : ∀ {p : Peel}, p.table = trapTable (3 * b) j k → peelLoop fuel p = .hang := by
  induction fuel with
  | zero => intro p _; rfl
  | succ fuel ih =>
    intro p hp
    obtain ⟨p', h1, h2, h3⟩ := trap_pass hb hji hi hnj hni hgap hp
    simp only [peelLoop, h1, Res.ok_bind]
    rw [if_pos (by omega)]
    exact ih h2

/-- For two or more cells per hash there is always a place for the trap. -/
theorem trap_exists {b : Nat} (hb : 2 ≤ b) (k : U32) :
    ∃ j i, j < i ∧ i < 3 * b ∧ hits b k j = false ∧ hits b k i = true ∧
      ∀ m, j < m → m < i → hits b k m = false := by
  have l0 := cellIdx_lt b 0 k (by omega)
  have l1 := cellIdx_lt b 1 k (by omega)
  have g1 := cellIdx_ge b 1 k
  have g2 := cellIdx_ge b 2 k
  by_cases h0 : cellIdx b 0 k = 0
  · refine ⟨1, cellIdx b 1 k, by omega, by omega, ?_, by simp [hits], ?_⟩
    · simp [hits]; omega
    · intro m hm1 hm2; simp [hits]; omega
  · refine ⟨0, cellIdx b 0 k, by omega, by omega, ?_, by simp [hits], ?_⟩
    · simp [hits]; omega
    · intro m hm1 hm2; simp [hits]; omega

/-- `l - r = trap` for a suitable `r`. -/
theorem trap_rhs {l : Table} {n j : Nat} {k : U32} (hl : l.length = n) :
    List.zipWith Cell.sub' l (List.zipWith Cell.sub' l (trapTable n j k)) = trapTable n j k := by
  apply List.ext_getElem?
  intro i
  rw [List.getElem?_zipWith, List.getElem?_zipWith]
  by_cases h : i < n
  · rw [trap_get, if_pos h, List.getElem?_eq_getElem (by omega)]
    generalize (if i = j then (⟨1, k, keyHash k⟩ : Cell) else Cell.zero) = c
    obtain ⟨n, a, h⟩ := c
    simp only [Cell.sub', Option.some.injEq, Cell.mk.injEq]
    refine ⟨by omega, ?_, ?_⟩ <;> rw [← BitVec.xor_assoc, BitVec.xor_self, BitVec.zero_xor]
  · rw [trap_get, if_neg h, List.getElem?_eq_none (by omega)]

end PSync
