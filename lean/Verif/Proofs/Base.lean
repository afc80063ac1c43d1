import Verif.Proofs.NMap
import Verif.Proofs.Wire
import Verif.Proofs.IbltAny
import Verif.Proofs.IbltSpec
import Verif.Spec.Producer
import Mathlib.Logic.Relation
/-!
Invariants of ProducerBase.
-/
namespace PSync
open Spec

namespace BiMap

theorem findRight_some {m : BiMap} {n : Name} {h : U32} (hf : m.findRight n = some h) : (h, n) ∈ m := by
  unfold findRight at hf
  cases hx : m.find? (fun e => e.2 = n) with
  | none => simp [hx] at hf
  | some e =>
    rw [hx] at hf
    have h1 := List.find?_some hx
    have h2 := List.mem_of_find?_eq_some hx
    simp only [Option.map_some, Option.some.injEq] at hf
    obtain ⟨a, b⟩ := e
    simp only [decide_eq_true_eq] at h1
    simp only at hf
    subst hf; subst h1
    exact h2

theorem findRight_none {m : BiMap} {n : Name} (hf : m.findRight n = none) (h : U32) : (h, n) ∉ m := by
  unfold findRight at hf
  simp only [Option.map_eq_none_iff, List.find?_eq_none, decide_eq_true_eq] at hf
  intro hm
  exact hf _ hm rfl

theorem findLeft_some {m : BiMap} {n : Name} {h : U32} (hf : m.findLeft h = some n) : (h, n) ∈ m := by
  unfold findLeft at hf
  cases hx : m.find? (fun e => e.1 = h) with
  | none => simp [hx] at hf
  | some e =>
    rw [hx] at hf
    have h1 := List.find?_some hx
    have h2 := List.mem_of_find?_eq_some hx
    simp only [Option.map_some, Option.some.injEq] at hf
    obtain ⟨a, b⟩ := e
    simp only [decide_eq_true_eq] at h1
    simp only at hf
    subst hf; subst h1
    exact h2

theorem findLeft_none {m : BiMap} {h : U32} (hf : m.findLeft h = none) (n : Name) : (h, n) ∉ m := by
  unfold findLeft at hf
  simp only [Option.map_eq_none_iff, List.find?_eq_none, decide_eq_true_eq] at hf
  intro hm
  exact hf _ hm rfl

theorem mem_eraseRight {m : BiMap} {n : Name} {e : U32 × Name} : e ∈ m.eraseRight n ↔ e ∈ m ∧ e.2 ≠ n := by
  simp [eraseRight]

theorem mem_insert {m : BiMap} {h : U32} {n : Name} {e : U32 × Name} (he : e ∈ m.insert h n) :
    e = (h, n) ∨ e ∈ m := by
  unfold insert at he
  split at he
  · exact Or.inr he
  · exact List.mem_cons.mp he

theorem mem_insert_of_mem {m : BiMap} {h : U32} {n : Name} {e : U32 × Name} (he : e ∈ m) : e ∈ m.insert h n := by
  unfold insert
  split
  · exact he
  · exact List.mem_cons_of_mem _ he

end BiMap

theorem toU64 : U64 = 18446744073709551616 := rfl

theorem appendNumber_inj' {p q : Name} {x y : Nat} (hx : x < U64) (hy : y < U64)
    (h : Name.appendNumber p x = Name.appendNumber q y) : p = q ∧ x = y := appendNumber_inj hx hy h

namespace Base

/-- What holds of every ProducerBase, collisions or not. -/
structure Inv (b : Base) : Prop where
  sorted : b.prefixes.Sorted
  lt : ∀ p s, b.prefixes.find p = some s → s < U64
  bm : ∀ h n, (h, n) ∈ b.biMap → h = nameHash n ∧ IsLive b.prefixes.find n
  nodupL : (b.biMap.map Prod.fst).Nodup
  nodupR : (b.biMap.map Prod.snd).Nodup
  own : b.numOwn % U64 = (sumSeq b.prefixes + sumRemoved b.hist) % U64
  ownLt : b.numOwn < U64

/-- What holds in addition as long as no two latest publications shared a hash. -/
structure Exact (e : Nat) (b : Base) : Prop where
  all : ∀ p s, b.prefixes.find p = some s → s ≠ 0 → (nameHash (Name.appendNumber p s), Name.appendNumber p s) ∈ b.biMap
  ibf : HoldsSet e b.iblt (b.biMap.map Prod.fst)

/-! Sums -/

theorem sumSeq_set {m : NMap Nat} (hm : m.Sorted) (p : Name) (v : Nat) :
    sumSeq (m.set p v) + (m.find p).getD 0 = sumSeq m + v := by
  unfold sumSeq
  induction m with
  | nil => simp [NMap.set]
  | cons e m ih =>
    obtain ⟨a, x⟩ := e
    have hs := hm
    unfold NMap.Sorted at hm
    rw [List.pairwise_cons] at hm
    unfold NMap.set
    rw [NMap.find_cons]
    by_cases h : a = p
    · rw [if_pos h, if_pos h]; simp; omega
    · rw [if_neg h, if_neg h]
      by_cases h2 : Name.lt p a = true
      · rw [if_pos h2]
        have : NMap.find m p = none := by
          rw [NMap.find_eq_none]
          intro v hv
          have := Name.lt_trans h2 (hm.1 _ hv)
          simp [Name.lt_irrefl] at this
        rw [this]
        simp; omega
      · rw [if_neg h2]
        have := ih hm.2
        simp only [List.map_cons, List.sum_cons] at this ⊢
        omega

theorem sumSeq_erase {m : NMap Nat} (hm : m.Sorted) (p : Name) :
    sumSeq (m.erase p) + (m.find p).getD 0 = sumSeq m := by
  unfold sumSeq
  induction m with
  | nil => simp [NMap.erase]
  | cons e m ih =>
    obtain ⟨a, x⟩ := e
    unfold NMap.Sorted at hm
    rw [List.pairwise_cons] at hm
    have ih := ih hm.2
    rw [NMap.find_cons]
    unfold NMap.erase at ih ⊢
    rw [List.filter_cons]
    by_cases h : a = p
    · subst h
      have hn : NMap.find m a = none := by
        rw [NMap.find_eq_none]
        intro v hv
        have := hm.1 _ hv
        simp [Name.lt_irrefl] at this
      rw [hn] at ih
      simp at ih ⊢
      omega
    · simp [h] at ih ⊢
      omega

theorem sumRemoved_append (h h' : List BaseEv) : sumRemoved (h ++ h') = sumRemoved h + sumRemoved h' := by
  induction h with
  | nil => simp [sumRemoved]
  | cons e h ih => cases e <;> simp [sumRemoved, ih]; omega

/-! Single operations -/

theorem inv_new (cfg : Cfg) : Inv (Base.new cfg) := by
  constructor <;> simp [Base.new, NMap.Sorted, sumSeq, sumRemoved, U64]

theorem exact_new (cfg : Cfg) : Exact cfg.expected (Base.new cfg) := by
  constructor
  · simp [Base.new]
  · refine ⟨by simp [Base.new], [], rfl, ?_⟩
    simp [Base.new, net]

theorem find_addUserNode (b : Base) (p q : Name) :
    (b.addUserNode p).2.prefixes.find q = if p = q then some ((b.prefixes.find p).getD 0) else b.prefixes.find q := by
  unfold addUserNode
  cases h : b.prefixes.find p with
  | none => simp only [NMap.find_set]; rfl
  | some s =>
    simp only [Option.getD_some]
    split
    · rename_i h1; rw [← h1, h]
    · rfl

theorem isLive_add (b : Base) (p : Name) (n : Name) :
    IsLive (b.addUserNode p).2.prefixes.find n ↔ IsLive b.prefixes.find n := by
  unfold IsLive
  constructor
  · rintro ⟨q, s, h, hs, rfl⟩
    rw [find_addUserNode] at h
    split at h
    · rename_i h1; subst h1
      cases h2 : b.prefixes.find p with
      | none => rw [h2] at h; simp at h; exact absurd h.symm hs
      | some s' => rw [h2] at h; simp at h; subst h; exact ⟨p, s', h2, hs, rfl⟩
    · exact ⟨q, s, h, hs, rfl⟩
  · rintro ⟨q, s, h, hs, rfl⟩
    refine ⟨q, s, ?_, hs, rfl⟩
    rw [find_addUserNode]
    split
    · rename_i h1; subst h1; rw [h]; rfl
    · exact h

theorem inv_add {b : Base} (hb : b.Inv) (p : Name) : (b.addUserNode p).2.Inv := by
  have hlive := isLive_add b p
  have hfind := find_addUserNode b p
  unfold addUserNode at *
  cases h : b.prefixes.find p with
  | some s => exact hb
  | none =>
    simp only [h] at hlive hfind ⊢
    refine ⟨NMap.sorted_set hb.sorted _ _, ?_, ?_, hb.nodupL, hb.nodupR, ?_, hb.ownLt⟩
    · intro q s hq
      simp only at hq
      rw [hfind] at hq
      split at hq
      · simp at hq; subst hq; decide
      · exact hb.lt q s hq
    · intro x n hn
      exact ⟨(hb.bm x n hn).1, (hlive n).mpr (hb.bm x n hn).2⟩
    · have := sumSeq_set hb.sorted p 0
      rw [h] at this
      simp only [Option.getD_none, Nat.add_zero] at this
      simp only
      rw [this]
      exact hb.own

theorem exact_add {e : Nat} {b : Base} (hb : b.Exact e) (p : Name) : (b.addUserNode p).2.Exact e := by
  have hfind := find_addUserNode b p
  unfold addUserNode at *
  cases h : b.prefixes.find p with
  | some s => exact hb
  | none =>
    simp only [h] at *
    refine ⟨?_, hb.ibf⟩
    intro q s hq hs
    simp only at hq
    rw [hfind] at hq
    split at hq
    · simp at hq; exact absurd hq.symm hs
    · exact hb.all q s hq hs

theorem index_eq (b : Base) (p : Name) :
    (b.index p).1 = (b.prefixes.find p).getD 0 ∧ (b.index p).2 = (b.addUserNode p).2 := by
  unfold index addUserNode
  cases b.prefixes.find p <;> simp

/-! eraseName -/

theorem eraseName_ok {b b' : Base} {n : Name} (h : b.eraseName n = .ok b') :
    b'.prefixes = b.prefixes ∧ b'.numOwn = b.numOwn ∧ b'.hist = b.hist ∧
    b'.biMap = b.biMap.eraseRight n ∧
    ((∃ x t, (x, n) ∈ b.biMap ∧ b.iblt.erase x = .ok t ∧ b'.iblt = t) ∨
      ((∀ x, (x, n) ∉ b.biMap) ∧ b'.iblt = b.iblt)) := by
  unfold eraseName at h
  cases hf : b.biMap.findRight n with
  | none =>
    rw [hf] at h
    simp only [Res.ok.injEq] at h
    subst h
    refine ⟨rfl, rfl, rfl, ?_, Or.inr ⟨BiMap.findRight_none hf, rfl⟩⟩
    unfold BiMap.eraseRight
    rw [eq_comm, List.filter_eq_self]
    rintro ⟨x, n'⟩ he
    simp only [ne_eq, decide_eq_true_eq]
    rintro rfl
    exact BiMap.findRight_none hf x he
  | some x =>
    rw [hf] at h
    simp only [Res.bind_eq_ok, Res.ok.injEq] at h
    obtain ⟨t, h1, rfl⟩ := h
    exact ⟨rfl, rfl, rfl, rfl, Or.inl ⟨x, t, BiMap.findRight_some hf, h1, rfl⟩⟩

theorem net_append (ops ops' : List KeyOp) (k : U32) : net (ops ++ ops') k = net ops k + net ops' k := by
  induction ops with
  | nil => simp [net]
  | cons o ops ih => cases o <;> simp [net, ih] <;> omega

theorem holds_erase {e : Nat} {t t' : Table} {A A' : List U32} {x : U32} (h : HoldsSet e t A)
    (he : t.erase x = .ok t') (hx : x ∈ A) (hA' : A'.Nodup) (hmem : ∀ k, k ∈ A' ↔ k ∈ A ∧ k ≠ x) :
    HoldsSet e t' A' := by
  obtain ⟨_, ops, hb, hn⟩ := h
  refine ⟨hA', ops ++ [.del x], ?_, ?_⟩
  · unfold build at hb ⊢
    rw [foldRes_append, hb]
    simp [foldRes, applyOp, he]
  · intro k
    rw [net_append, hn k]
    simp only [net, hmem k]
    by_cases h1 : k = x
    · subst h1; simp [hx]
    · have h2 : ¬ x = k := fun h2 => h1 h2.symm
      simp [h1, h2]

theorem holds_insert {e : Nat} {t t' : Table} {A A' : List U32} {x : U32} (h : HoldsSet e t A)
    (he : t.insert x = .ok t') (hx : x ∉ A) (hA' : A'.Nodup) (hmem : ∀ k, k ∈ A' ↔ k ∈ A ∨ k = x) :
    HoldsSet e t' A' := by
  obtain ⟨_, ops, hb, hn⟩ := h
  refine ⟨hA', ops ++ [.ins x], ?_, ?_⟩
  · unfold build at hb ⊢
    rw [foldRes_append, hb]
    simp [foldRes, applyOp, he]
  · intro k
    rw [net_append, hn k]
    simp only [net, hmem k]
    by_cases h1 : k = x
    · subst h1; simp [hx]
    · have h2 : ¬ x = k := fun h2 => h1 h2.symm
      simp [h1, h2]

theorem holds_congr {e : Nat} {t : Table} {A A' : List U32} (h : HoldsSet e t A) (hA' : A'.Nodup)
    (hmem : ∀ k, k ∈ A' ↔ k ∈ A) : HoldsSet e t A' := by
  obtain ⟨_, ops, hb, hn⟩ := h
  refine ⟨hA', ops, hb, ?_⟩
  intro k
  rw [hn k]
  simp [hmem k]

/-- After eraseName the bimap and IBF hold the same hashes. -/
theorem eraseName_holds {e : Nat} {b b' : Base} {n : Name} (hL : (b.biMap.map Prod.fst).Nodup)
    (hR : (b.biMap.map Prod.snd).Nodup)
    (hh : HoldsSet e b.iblt (b.biMap.map Prod.fst)) (h : b.eraseName n = .ok b') :
    HoldsSet e b'.iblt (b'.biMap.map Prod.fst) := by
  obtain ⟨_, _, _, hbm, hi⟩ := eraseName_ok h
  have hL' : ((b.biMap.eraseRight n).map Prod.fst).Nodup :=
    List.Sublist.nodup ((List.filter_sublist).map _) hL
  rw [hbm]
  rcases hi with ⟨x, t, hx, ht, rfl⟩ | ⟨hno, hi⟩
  · refine holds_erase hh ht (List.mem_map.mpr ⟨_, hx, rfl⟩) hL' ?_
    intro k
    simp only [List.mem_map, BiMap.mem_eraseRight]
    constructor
    · rintro ⟨⟨k', n'⟩, ⟨hm, hne⟩, rfl⟩
      refine ⟨⟨_, hm, rfl⟩, ?_⟩
      rintro rfl
      have := List.inj_on_of_nodup_map hL hm hx rfl
      simp at this hne
      exact hne this
    · rintro ⟨⟨⟨k', n'⟩, hm, rfl⟩, hne⟩
      refine ⟨_, ⟨hm, ?_⟩, rfl⟩
      simp only
      rintro rfl
      have := List.inj_on_of_nodup_map hR hm hx rfl
      simp at this hne
      exact hne this
  · rw [hi]
    refine holds_congr hh hL' ?_
    intro k
    simp only [List.mem_map, BiMap.mem_eraseRight]
    constructor
    · rintro ⟨e', ⟨hm, _⟩, rfl⟩; exact ⟨e', hm, rfl⟩
    · rintro ⟨⟨k', n'⟩, hm, rfl⟩
      refine ⟨_, ⟨hm, ?_⟩, rfl⟩
      simp only
      rintro rfl
      exact hno _ hm

/-! removeUserNode -/

theorem removeUserNode_ok {b b' : Base} {p : Name} (h : b.removeUserNode p = .ok b') :
    b'.prefixes = b.prefixes.erase p ∧ b'.numOwn = b.numOwn ∧
    b'.hist = (match b.prefixes.find p with | none => b.hist | some s => b.hist ++ [.remove p s]) := by
  unfold removeUserNode at h
  cases hp : b.prefixes.find p with
  | none =>
    simp only [hp, Res.ok.injEq] at h
    subst h
    refine ⟨?_, rfl, rfl⟩
    unfold NMap.erase
    rw [eq_comm, List.filter_eq_self]
    rintro ⟨x, s⟩ he
    simp only [ne_eq, decide_eq_true_eq]
    rintro rfl
    exact NMap.find_eq_none.mp hp s he
  | some s =>
    simp only [hp] at h
    obtain ⟨h1, h2, h3, _⟩ := eraseName_ok h
    exact ⟨h1, h2, h3⟩

theorem inv_remove {b b' : Base} (hb : b.Inv) {p : Name} (h : b.removeUserNode p = .ok b') : b'.Inv := by
  obtain ⟨h1, h2, h3⟩ := removeUserNode_ok h
  unfold removeUserNode at h
  cases hp : b.prefixes.find p with
  | none => simp only [hp, Res.ok.injEq] at h; subst h; exact hb
  | some s =>
    simp only [hp] at h h3
    obtain ⟨_, _, _, h4, _⟩ := eraseName_ok h
    simp only at h4
    have hslt := hb.lt p s hp
    refine ⟨by rw [h1]; exact NMap.sorted_erase hb.sorted p, ?_, ?_, ?_, ?_, ?_, by rw [h2]; exact hb.ownLt⟩
    · intro q s' hq
      rw [h1, NMap.find_erase] at hq
      split at hq
      · simp at hq
      · exact hb.lt q s' hq
    · intro x n hn
      rw [h4, BiMap.mem_eraseRight] at hn
      obtain ⟨hx, q, s', hq, hs', rfl⟩ := hb.bm x n hn.1
      refine ⟨hx, q, s', ?_, hs', rfl⟩
      rw [h1, NMap.find_erase]
      rw [if_neg]
      · exact hq
      · rintro rfl
        rw [hp] at hq
        cases hq
        exact hn.2 rfl
    · rw [h4]; exact List.Sublist.nodup ((List.filter_sublist).map _) hb.nodupL
    · rw [h4]; exact List.Sublist.nodup ((List.filter_sublist).map _) hb.nodupR
    · rw [h1, h2, h3, sumRemoved_append, hb.own]
      have := sumSeq_erase hb.sorted p
      rw [hp] at this
      simp only [Option.getD_some] at this
      simp only [sumRemoved, Nat.add_zero]
      rw [← this]
      congr 1
      omega

theorem exact_remove {e : Nat} {b b' : Base} (hb : b.Inv) (hx : b.Exact e) {p : Name}
    (h : b.removeUserNode p = .ok b') : b'.Exact e := by
  obtain ⟨h1, h2, h3⟩ := removeUserNode_ok h
  unfold removeUserNode at h
  cases hp : b.prefixes.find p with
  | none => simp only [hp, Res.ok.injEq] at h; subst h; exact hx
  | some s =>
    simp only [hp] at h
    have hh := eraseName_holds (b := { b with prefixes := b.prefixes.erase p, hist := b.hist ++ [.remove p s] })
      hb.nodupL hb.nodupR hx.ibf h
    obtain ⟨_, _, _, h4, _⟩ := eraseName_ok h
    simp only at h4
    refine ⟨?_, hh⟩
    intro q s' hq hs'
    rw [h1, NMap.find_erase] at hq
    split at hq
    · simp at hq
    · rename_i hne
      rw [h4, BiMap.mem_eraseRight]
      refine ⟨hx.all q s' hq hs', ?_⟩
      intro heq
      exact hne (appendNumber_inj' (hb.lt _ _ hq) (hb.lt _ _ hp) heq).1.symm

/-! updateSeqNo -/

/-- The two outcomes of a successful updateSeqNo. -/
theorem updateSeqNo_ok {b b' : Base} {p : Name} {q : Nat} (h : b.updateSeqNo p q = .ok b') :
    (b' = b ∧ (∀ s, b.prefixes.find p = some s → q ≤ s)) ∨
    ∃ s b1 t, b.prefixes.find p = some s ∧ s < q ∧
      (if s ≠ 0 then b.eraseName (Name.appendNumber p s) else .ok b) = .ok b1 ∧
      b1.prefixes = b.prefixes ∧ b1.numOwn = b.numOwn ∧ b1.hist = b.hist ∧
      b1.iblt.insert (nameHash (Name.appendNumber p q)) = .ok t ∧
      b' = { iblt := t, prefixes := b.prefixes.set p q
             biMap := b1.biMap.insert (nameHash (Name.appendNumber p q)) (Name.appendNumber p q)
             numOwn := (b.numOwn + (q - s)) % U64
             hist := b.hist ++ [.update p s q (b.prefixes.set p q)] } := by
  unfold updateSeqNo at h
  cases hp : b.prefixes.find p with
  | none => simp only [hp, Res.ok.injEq] at h; subst h; left; exact ⟨rfl, by simp⟩
  | some s =>
    simp only [hp] at h
    by_cases hge : s ≥ q
    · rw [if_pos hge] at h
      simp only [Res.ok.injEq] at h
      subst h
      left
      refine ⟨rfl, ?_⟩
      rintro s' ⟨⟩
      exact hge
    · rw [if_neg hge] at h
      simp only [Res.bind_eq_ok, Res.ok.injEq] at h
      obtain ⟨b1, h1, t, h2, h3⟩ := h
      right
      have : b1.prefixes = b.prefixes ∧ b1.numOwn = b.numOwn ∧ b1.hist = b.hist := by
        split at h1
        · obtain ⟨a, b, c, _⟩ := eraseName_ok h1; exact ⟨a, b, c⟩
        · cases h1; exact ⟨rfl, rfl, rfl⟩
      obtain ⟨a1, a2, a3⟩ := this
      refine ⟨s, b1, t, rfl, by omega, h1, a1, a2, a3, h2, ?_⟩
      rw [← h3, a1, a2, a3]

theorem find_updateSeqNo {b b' : Base} {p : Name} {q : Nat} (h : b.updateSeqNo p q = .ok b') (r : Name) :
    b'.prefixes.find r = if p = r then (b.prefixes.find p).map (fun s => max s q) else b.prefixes.find r := by
  rcases updateSeqNo_ok h with ⟨rfl, h1⟩ | ⟨s, b1, t, hp, hlt, _, _, _, _, _, rfl⟩
  · split
    · rename_i h2; subst h2
      cases h3 : b'.prefixes.find p with
      | none => rfl
      | some s => have := h1 s h3; simp; omega
    · rfl
  · simp only [NMap.find_set]
    split
    · rename_i h2; subst h2; rw [hp]; simp; omega
    · rfl

theorem inv_update {b b' : Base} (hb : b.Inv) {p : Name} {q : Nat} (hq : q < U64)
    (h : b.updateSeqNo p q = .ok b') : b'.Inv := by
  rcases updateSeqNo_ok h with ⟨rfl, h1⟩ | ⟨s, b1, t, hp, hlt, he, hp1, hn1, hh1, _, rfl⟩
  · exact hb
  have hslt := hb.lt p s hp
  -- the bimap after the erasure
  have hbm1 : ∀ x n, (x, n) ∈ b1.biMap → (x, n) ∈ b.biMap ∧ n ≠ Name.appendNumber p s := by
    intro x n hn
    split at he
    · obtain ⟨_, _, _, h4, _⟩ := eraseName_ok he
      rw [h4, BiMap.mem_eraseRight] at hn
      exact hn
    · rename_i hs
      cases he
      refine ⟨hn, ?_⟩
      rintro rfl
      obtain ⟨_, q', s', hq', hs', heq⟩ := hb.bm _ _ hn
      have := (appendNumber_inj' hslt (hb.lt _ _ hq') heq).2
      omega
  have hsub : List.Sublist b1.biMap b.biMap := by
    split at he
    · obtain ⟨_, _, _, h4, _⟩ := eraseName_ok he
      rw [h4]; exact List.filter_sublist
    · cases he; exact List.Sublist.refl _
  refine ⟨NMap.sorted_set hb.sorted _ _, ?_, ?_, ?_, ?_, ?_, Nat.mod_lt _ (by decide)⟩
  · intro r s' hr
    simp only [NMap.find_set] at hr
    split at hr
    · cases hr; exact hq
    · exact hb.lt r s' hr
  · intro x n hn
    rcases BiMap.mem_insert hn with h1 | h1
    · cases h1
      refine ⟨rfl, p, q, ?_, by omega, rfl⟩
      simp [NMap.find_set]
    · obtain ⟨h2, h3⟩ := hbm1 x n h1
      obtain ⟨hx, r, s', hr, hs', rfl⟩ := hb.bm x n h2
      refine ⟨hx, r, s', ?_, hs', rfl⟩
      simp only [NMap.find_set]
      rw [if_neg]
      · exact hr
      · rintro rfl
        rw [hp] at hr
        cases hr
        exact h3 rfl
  · have := (hsub.map Prod.fst).nodup hb.nodupL
    simp only
    unfold BiMap.insert
    split
    · exact this
    · rename_i hno
      simp only [List.any_eq_true, not_exists, not_and, Bool.or_eq_true, decide_eq_true_eq, not_or] at hno
      rw [List.map_cons, List.nodup_cons]
      refine ⟨?_, this⟩
      intro hm
      obtain ⟨e', he', heq⟩ := List.mem_map.mp hm
      exact (hno e' he').1 heq
  · have := (hsub.map Prod.snd).nodup hb.nodupR
    simp only
    unfold BiMap.insert
    split
    · exact this
    · rename_i hno
      simp only [List.any_eq_true, not_exists, not_and, Bool.or_eq_true, decide_eq_true_eq, not_or] at hno
      rw [List.map_cons, List.nodup_cons]
      refine ⟨?_, this⟩
      intro hm
      obtain ⟨e', he', heq⟩ := List.mem_map.mp hm
      exact (hno e' he').2 heq
  · simp only
    rw [sumRemoved_append]
    simp only [sumRemoved, Nat.add_zero]
    have h1 := sumSeq_set hb.sorted p q
    rw [hp] at h1
    simp only [Option.getD_some] at h1
    have h2 := hb.own
    have h3 : sumSeq (b.prefixes.set p q) + sumRemoved b.hist = sumSeq b.prefixes + sumRemoved b.hist + (q - s) := by
      omega
    rw [h3, Nat.mod_mod, Nat.add_mod, h2, ← Nat.add_mod]

/-- The distinctness needed at an insertion. -/
theorem exact_update {e : Nat} {b b' : Base} (hb : b.Inv) (hx : b.Exact e) {p : Name} {q : Nat} (hq : q < U64)
    (h : b.updateSeqNo p q = .ok b') (hcf : CollisionFree b'.hist) : b'.Exact e := by
  have hinv' := inv_update hb hq h
  rcases updateSeqNo_ok h with ⟨rfl, h1⟩ | ⟨s, b1, t, hp, hlt, he, hp1, hn1, hh1, hins, rfl⟩
  · exact hx
  have hd : DistinctHashes (b.prefixes.set p q).find := hcf p s q _ (by simp)
  have hslt := hb.lt p s hp
  have hL1 : (b1.biMap.map Prod.fst).Nodup := by
    split at he
    · obtain ⟨_, _, _, h4, _⟩ := eraseName_ok he
      rw [h4]; exact List.Sublist.nodup ((List.filter_sublist).map _) hb.nodupL
    · cases he; exact hb.nodupL
  have hold : HoldsSet e b1.iblt (b1.biMap.map Prod.fst) := by
    split at he
    · exact eraseName_holds hb.nodupL hb.nodupR hx.ibf he
    · cases he; exact hx.ibf
  -- what is left in the bimap
  have hb1 : ∀ x n, (x, n) ∈ b1.biMap → x = nameHash n ∧ ∃ r s', r ≠ p ∧ b.prefixes.find r = some s' ∧ s' ≠ 0 ∧
      n = Name.appendNumber r s' := by
    intro x n hn
    have hmem : (x, n) ∈ b.biMap ∧ n ≠ Name.appendNumber p s := by
      split at he
      · obtain ⟨_, _, _, h4, _⟩ := eraseName_ok he
        rw [h4, BiMap.mem_eraseRight] at hn
        exact hn
      · rename_i hs
        cases he
        refine ⟨hn, ?_⟩
        rintro rfl
        obtain ⟨_, q', s', hq', hs', heq⟩ := hb.bm _ _ hn
        have := (appendNumber_inj' hslt (hb.lt _ _ hq') heq).2
        omega
    obtain ⟨hxx, r, s', hr, hs', rfl⟩ := hb.bm x n hmem.1
    refine ⟨hxx, r, s', ?_, hr, hs', rfl⟩
    rintro rfl
    rw [hp] at hr
    cases hr
    exact hmem.2 rfl
  have hlive : IsLive (b.prefixes.set p q).find (Name.appendNumber p q) :=
    ⟨p, q, by simp [NMap.find_set], by omega, rfl⟩
  have hnew : ∀ x n, (x, n) ∈ b1.biMap → x ≠ nameHash (Name.appendNumber p q) ∧ n ≠ Name.appendNumber p q := by
    intro x n hn
    obtain ⟨hxx, r, s', hr, hr', hs', rfl⟩ := hb1 x n hn
    have hne : Name.appendNumber r s' ≠ Name.appendNumber p q := by
      intro heq
      exact hr (appendNumber_inj' (hb.lt _ _ hr') hq heq).1
    refine ⟨?_, hne⟩
    intro heq
    apply hne
    apply hd _ _ ⟨r, s', by simp [NMap.find_set, Ne.symm hr, hr'], hs', rfl⟩ hlive
    rw [hxx] at heq
    exact heq
  have hbi : b1.biMap.insert (nameHash (Name.appendNumber p q)) (Name.appendNumber p q) =
      (nameHash (Name.appendNumber p q), Name.appendNumber p q) :: b1.biMap := by
    unfold BiMap.insert
    rw [if_neg]
    simp only [List.any_eq_true, not_exists, not_and, Bool.or_eq_true, decide_eq_true_eq, not_or]
    rintro ⟨x, n⟩ hn
    exact hnew x n hn
  refine ⟨?_, ?_⟩
  · intro r s' hr hs'
    simp only [NMap.find_set] at hr
    simp only
    rw [hbi]
    split at hr
    · rename_i h1; subst h1; cases hr; exact List.mem_cons_self
    · rename_i hne
      refine List.mem_cons_of_mem _ ?_
      have hm := hx.all r s' hr hs'
      split at he
      · obtain ⟨_, _, _, h4, _⟩ := eraseName_ok he
        rw [h4, BiMap.mem_eraseRight]
        refine ⟨hm, ?_⟩
        intro heq
        exact hne (appendNumber_inj' (hb.lt _ _ hr) hslt heq).1.symm
      · cases he; exact hm
  · simp only
    have hx' : nameHash (Name.appendNumber p q) ∉ b1.biMap.map Prod.fst := by
      intro hm
      obtain ⟨⟨x, n⟩, hn, heq⟩ := List.mem_map.mp hm
      exact (hnew x n hn).1 heq
    rw [hbi]
    refine holds_insert hold hins hx' ?_ ?_
    · rw [List.map_cons, List.nodup_cons]; exact ⟨hx', hL1⟩
    · intro k
      simp only [List.map_cons, List.mem_cons]
      tauto

/-! Histories -/

/-- One change of the base; removals only of prefixes in `R`. -/
inductive Step (R : Name → Prop) (b : Base) : Base → Prop
  | add (p : Name) : Step R b (b.addUserNode p).2
  | remove {b' : Base} (p : Name) : R p → b.removeUserNode p = .ok b' → Step R b b'
  | update {b' : Base} (p : Name) (q : Nat) : q < U64 → b.updateSeqNo p q = .ok b' → Step R b b'

abbrev Steps (R : Name → Prop) : Base → Base → Prop := Relation.ReflTransGen (Step R)

theorem Steps.refl {R : Name → Prop} {b : Base} : Steps R b b := Relation.ReflTransGen.refl

theorem Steps.of_eq {R : Name → Prop} {b b' : Base} (h : b' = b) : Steps R b b' := h ▸ Steps.refl

theorem Steps.trans {R : Name → Prop} {a b c : Base} (h : Steps R a b) (h' : Steps R b c) : Steps R a c :=
  Relation.ReflTransGen.trans h h'

theorem Step.mono {R R' : Name → Prop} (hR : ∀ p, R p → R' p) {b b' : Base} (h : Step R b b') : Step R' b b' := by
  cases h with
  | add p => exact .add p
  | remove p hp h => exact .remove p (hR _ hp) h
  | update p q hq h => exact .update p q hq h

theorem Steps.mono {R R' : Name → Prop} (hR : ∀ p, R p → R' p) {b b' : Base} (h : Steps R b b') : Steps R' b b' := by
  induction h with
  | refl => exact Steps.refl
  | tail _ h ih => exact ih.tail (h.mono hR)

theorem Step.inv {R : Name → Prop} {b b' : Base} (h : Step R b b') (hb : b.Inv) : b'.Inv := by
  cases h with
  | add p => exact inv_add hb p
  | remove p _ h => exact inv_remove hb h
  | update p q hq h => exact inv_update hb hq h

theorem Steps.inv {R : Name → Prop} {b b' : Base} (h : Steps R b b') (hb : b.Inv) : b'.Inv := by
  induction h with
  | refl => exact hb
  | tail _ h ih => exact h.inv ih

theorem addUserNode_hist (b : Base) (p : Name) : (b.addUserNode p).2.hist = b.hist := by
  unfold addUserNode
  cases b.prefixes.find p <;> rfl

theorem Step.hist {R : Name → Prop} {b b' : Base} (h : Step R b b') : ∃ ext, b'.hist = b.hist ++ ext := by
  cases h with
  | add p => exact ⟨[], by rw [addUserNode_hist]; simp⟩
  | remove p _ h =>
    have := (removeUserNode_ok h).2.2
    split at this
    · exact ⟨[], by simpa using this⟩
    · exact ⟨_, this⟩
  | update p q hq h =>
    rcases updateSeqNo_ok h with ⟨rfl, _⟩ | ⟨s, b1, t, hp, hlt, _, _, _, _, _, rfl⟩
    · exact ⟨[], by simp⟩
    · exact ⟨_, rfl⟩

theorem Steps.hist {R : Name → Prop} {b b' : Base} (h : Steps R b b') : ∃ ext, b'.hist = b.hist ++ ext := by
  induction h with
  | refl => exact ⟨[], by simp⟩
  | tail _ h ih =>
    obtain ⟨x, hx⟩ := ih
    obtain ⟨y, hy⟩ := h.hist
    exact ⟨x ++ y, by rw [hy, hx, List.append_assoc]⟩

theorem collisionFree_of_append {h h' : List BaseEv} (hc : CollisionFree (h ++ h')) : CollisionFree h :=
  fun p o n m hm => hc p o n m (List.mem_append_left _ hm)

theorem Steps.exact {R : Name → Prop} {e : Nat} {b b' : Base} (h : Steps R b b') (hb : b.Inv)
    (hcf : CollisionFree b'.hist) (hx : b.Exact e) : b'.Exact e := by
  induction h with
  | refl => exact hx
  | @tail b1 b2 h0 h ih =>
    have hcf1 : CollisionFree b1.hist := by
      obtain ⟨y, hy⟩ := h.hist
      rw [hy] at hcf
      exact collisionFree_of_append hcf
    have hb1 := Steps.inv h0 hb
    have hx1 := ih hcf1
    cases h with
    | add p => exact exact_add hx1 p
    | remove p _ h => exact exact_remove hb1 hx1 h
    | update p q hq h => exact exact_update hb1 hx1 hq h hcf

theorem Step.mono_seq {R : Name → Prop} {b b' : Base} (h : Step R b b') {p : Name} (hp : ¬ R p) {s : Nat}
    (hs : b.prefixes.find p = some s) : ∃ s', b'.prefixes.find p = some s' ∧ s ≤ s' := by
  cases h with
  | add q =>
    rw [find_addUserNode]
    split
    · rename_i h; subst h; rw [hs]; exact ⟨s, rfl, le_rfl⟩
    · exact ⟨s, hs, le_rfl⟩
  | remove q hq h =>
    rw [(removeUserNode_ok h).1, NMap.find_erase]
    rw [if_neg (by rintro rfl; exact hp hq)]
    exact ⟨s, hs, le_rfl⟩
  | update q x hx h =>
    rw [find_updateSeqNo h]
    split
    · rename_i h; subst h; rw [hs]; exact ⟨max s x, rfl, by omega⟩
    · exact ⟨s, hs, le_rfl⟩

theorem Steps.mono_seq {R : Name → Prop} {b b' : Base} (h : Steps R b b') {p : Name} (hp : ¬ R p) {s : Nat}
    (hs : b.prefixes.find p = some s) : ∃ s', b'.prefixes.find p = some s' ∧ s ≤ s' := by
  induction h with
  | refl => exact ⟨s, hs, le_rfl⟩
  | tail _ h ih =>
    obtain ⟨s1, h1, h2⟩ := ih
    obtain ⟨s2, h3, h4⟩ := h.mono_seq hp h1
    exact ⟨s2, h3, by omega⟩

theorem step_index {R : Name → Prop} (b : Base) (p : Name) : Step R b (b.index p).2 := by
  rw [(index_eq b p).2]; exact .add p

end Base

/-! Folds -/

theorem foldRes_rel {σ ι : Type} {f : σ → ι → Res σ} {Q : σ → σ → Prop} (hr : ∀ s, Q s s)
    (ht : ∀ a b c, Q a b → Q b c → Q a c) (l : List ι) (h : ∀ s x s', x ∈ l → f s x = .ok s' → Q s s') :
    ∀ {s s' : σ}, foldRes f s l = .ok s' → Q s s' := by
  induction l with
  | nil => intro s s' hs; simp only [foldRes, Res.ok.injEq] at hs; rw [← hs]; exact hr s
  | cons x l ih =>
    intro s s' hs
    simp only [foldRes, Res.bind_eq_ok] at hs
    obtain ⟨s1, h1, h2⟩ := hs
    exact ht _ _ _ (h s x s1 List.mem_cons_self h1)
      (ih (fun s x s' hx => h s x s' (List.mem_cons_of_mem _ hx)) h2)

theorem foldRes_inv {σ ι : Type} {f : σ → ι → Res σ} {P : σ → Prop} (l : List ι)
    (h : ∀ s x s', x ∈ l → P s → f s x = .ok s' → P s') :
    ∀ {s s' : σ}, P s → foldRes f s l = .ok s' → P s' := by
  induction l with
  | nil => intro s s' hp hs; simp only [foldRes, Res.ok.injEq] at hs; rw [← hs]; exact hp
  | cons x l ih =>
    intro s s' hp hs
    simp only [foldRes, Res.bind_eq_ok] at hs
    obtain ⟨s1, h1, h2⟩ := hs
    exact ih (fun s x s' hx => h s x s' (List.mem_cons_of_mem _ hx)) (h s x s1 List.mem_cons_self hp h1) h2

end PSync
