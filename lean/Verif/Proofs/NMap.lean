import Verif.Model.Name
import Mathlib.Data.List.Lex
import Mathlib.Order.Lex
import Mathlib.Data.List.Nodup
/-!
Facts about the ordered maps.
-/
namespace PSync

theorem Component.key_inj {a b : Component} (h : a.key = b.key) : a = b := by
  obtain ⟨t, v⟩ := a
  obtain ⟨t', v'⟩ := b
  simp only [Component.key, List.cons.injEq] at h
  obtain ⟨h1, -, h3⟩ := h
  rw [Tlv.mk.injEq]
  exact ⟨h1, List.map_injective_iff.mpr (fun _ _ h => BitVec.eq_of_toNat_eq h) h3⟩

theorem Name.key_inj {a b : Name} (h : a.key = b.key) : a = b :=
  List.map_injective_iff.mpr (fun _ _ h => Component.key_inj h) h

theorem Name.lt_iff {a b : Name} : Name.lt a b = true ↔ a.key < b.key := by simp [Name.lt]

theorem Name.lt_irrefl (a : Name) : Name.lt a a = false := by
  simp [Name.lt]

theorem Name.lt_trans {a b c : Name} (h1 : Name.lt a b = true) (h2 : Name.lt b c = true) : Name.lt a c = true := by
  rw [Name.lt_iff] at *
  exact _root_.lt_trans h1 h2

theorem Name.lt_asymm {a b : Name} (h1 : Name.lt a b = true) : Name.lt b a = false := by
  rw [Name.lt_iff] at h1
  simp only [Name.lt, decide_eq_false_iff_not]
  exact not_lt_of_gt h1

theorem Name.lt_total {a b : Name} (h : a ≠ b) (h1 : Name.lt a b = false) : Name.lt b a = true := by
  rw [Name.lt_iff]
  simp only [Name.lt, decide_eq_false_iff_not] at h1
  rcases lt_trichotomy a.key b.key with h2 | h2 | h2
  · exact absurd h2 h1
  · exact absurd (Name.key_inj h2) h
  · exact h2

namespace NMap
variable {β : Type}

/-- Keys in strictly increasing order. -/
def Sorted (m : NMap β) : Prop := m.Pairwise (fun a b => Name.lt a.1 b.1 = true)

theorem sorted_nil : Sorted ([] : NMap β) := List.Pairwise.nil

@[simp] theorem find_nil (k : Name) : find ([] : NMap β) k = none := rfl

theorem find_cons (k' : Name) (v : β) (m : NMap β) (k : Name) :
    find ((k', v) :: m) k = if k' = k then some v else find m k := rfl

theorem find_set (m : NMap β) (k : Name) (v : β) (k' : Name) :
    find (set m k v) k' = if k = k' then some v else find m k' := by
  induction m with
  | nil => simp [set, find_cons]
  | cons e m ih =>
    obtain ⟨a, x⟩ := e
    unfold set
    split
    · rename_i h; subst h; simp only [find_cons]; split <;> rfl
    · split
      · simp only [find_cons]
      · rename_i h _
        rw [find_cons, ih, find_cons]
        by_cases h1 : a = k'
        · subst h1; rw [if_pos rfl, if_neg (fun h2 => h h2.symm), if_pos rfl]
        · rw [if_neg h1, if_neg h1]

theorem find_erase (m : NMap β) (k k' : Name) :
    find (erase m k) k' = if k = k' then none else find m k' := by
  induction m with
  | nil => simp [erase]
  | cons e m ih =>
    obtain ⟨a, x⟩ := e
    unfold erase at ih ⊢
    rw [List.filter_cons]
    by_cases h : a = k
    · subst h
      simp only [ne_eq, not_true_eq_false, decide_false, Bool.false_eq_true, if_false]
      rw [ih, find_cons]
      split <;> rfl
    · simp only [ne_eq, h, not_false_eq_true, decide_true, if_true]
      rw [find_cons, ih, find_cons]
      by_cases h1 : a = k'
      · subst h1; rw [if_pos rfl, if_neg (fun h2 => h h2.symm), if_pos rfl]
      · rw [if_neg h1, if_neg h1]

theorem find_emplace (m : NMap β) (k : Name) (v : β) (k' : Name) :
    find (emplace m k v) k' = if k = k' then some ((find m k).getD v) else find m k' := by
  unfold emplace
  cases h : find m k with
  | none => simp only [find_set]; rfl
  | some x =>
    simp only [Option.getD_some]
    split
    · rename_i h1; rw [← h1, h]
    · rfl

theorem mem_set {m : NMap β} {k : Name} {v : β} {e : Name × β} (h : e ∈ set m k v) : e = (k, v) ∨ e ∈ m := by
  induction m with
  | nil => simpa [set] using h
  | cons a m ih =>
    obtain ⟨a, x⟩ := a
    unfold set at h
    split at h
    · rcases List.mem_cons.mp h with h | h
      · exact Or.inl h
      · exact Or.inr (List.mem_cons_of_mem _ h)
    · split at h
      · rcases List.mem_cons.mp h with h | h
        · exact Or.inl h
        · exact Or.inr h
      · rcases List.mem_cons.mp h with h | h
        · exact Or.inr (h ▸ List.mem_cons_self)
        · rcases ih h with h | h
          · exact Or.inl h
          · exact Or.inr (List.mem_cons_of_mem _ h)

theorem sorted_set {m : NMap β} (hm : Sorted m) (k : Name) (v : β) : Sorted (set m k v) := by
  induction m with
  | nil => simp [set, Sorted]
  | cons a m ih =>
    obtain ⟨a, x⟩ := a
    unfold Sorted at hm ih ⊢
    rw [List.pairwise_cons] at hm
    unfold set
    split
    · rename_i h; subst h
      exact List.pairwise_cons.mpr hm
    · rename_i hne
      split
      · rename_i hlt
        refine List.pairwise_cons.mpr ⟨?_, List.pairwise_cons.mpr hm⟩
        intro e he
        rcases List.mem_cons.mp he with he | he
        · rw [he]; exact hlt
        · exact Name.lt_trans hlt (hm.1 e he)
      · rename_i hlt
        refine List.pairwise_cons.mpr ⟨?_, ih hm.2⟩
        intro e he
        rcases mem_set he with he | he
        · rw [he]; exact Name.lt_total (fun h => hne h.symm) (by simpa using hlt)
        · exact hm.1 e he

theorem sorted_erase {m : NMap β} (hm : Sorted m) (k : Name) : Sorted (erase m k) := hm.filter _

theorem sorted_emplace {m : NMap β} (hm : Sorted m) (k : Name) (v : β) : Sorted (emplace m k v) := by
  unfold emplace
  split
  · exact hm
  · exact sorted_set hm k v

theorem mem_of_find {m : NMap β} {k : Name} {v : β} (h : find m k = some v) : (k, v) ∈ m := by
  induction m with
  | nil => simp at h
  | cons e m ih =>
    obtain ⟨a, x⟩ := e
    rw [find_cons] at h
    split at h
    · rename_i h1; subst h1; cases h; exact List.mem_cons_self
    · exact List.mem_cons_of_mem _ (ih h)

theorem find_of_mem {m : NMap β} (hm : Sorted m) {k : Name} {v : β} (h : (k, v) ∈ m) : find m k = some v := by
  induction m with
  | nil => simp at h
  | cons e m ih =>
    obtain ⟨a, x⟩ := e
    unfold Sorted at hm ih
    rw [List.pairwise_cons] at hm
    rw [find_cons]
    rcases List.mem_cons.mp h with h | h
    · cases h; rw [if_pos rfl]
    · rw [if_neg, ih hm.2 h]
      intro h1
      have := hm.1 _ h
      rw [h1] at this
      simp [Name.lt_irrefl] at this

theorem find_iff {m : NMap β} (hm : Sorted m) {k : Name} {v : β} : find m k = some v ↔ (k, v) ∈ m :=
  ⟨mem_of_find, find_of_mem hm⟩

theorem keys_nodup {m : NMap β} (hm : Sorted m) : (keys m).Nodup := by
  unfold keys List.Nodup
  rw [List.pairwise_map]
  refine hm.imp ?_
  intro a b h h1
  rw [h1] at h
  simp [Name.lt_irrefl] at h

theorem nodup {m : NMap β} (hm : Sorted m) : m.Nodup := (keys_nodup hm).of_map _

theorem mem_keys {m : NMap β} {k : Name} : k ∈ keys m ↔ (find m k).isSome = true := by
  induction m with
  | nil => simp [keys]
  | cons e m ih =>
    obtain ⟨a, x⟩ := e
    unfold keys at ih ⊢
    rw [List.map_cons, List.mem_cons, find_cons, ih]
    by_cases h : a = k
    · simp [h]
    · rw [if_neg h]
      exact ⟨fun h1 => h1.resolve_left (fun h2 => h h2.symm), Or.inr⟩

/-- Sorted maps with the same lookups are equal. -/
theorem ext {m m' : NMap β} (hm : Sorted m) (hm' : Sorted m') (h : ∀ k, find m k = find m' k) : m = m' := by
  have hp : m.Perm m' := by
    rw [List.perm_ext_iff_of_nodup (nodup hm) (nodup hm')]
    rintro ⟨k, v⟩
    rw [← find_iff hm, ← find_iff hm', h]
  refine List.Perm.eq_of_pairwise (le := fun a b : Name × β => Name.lt a.1 b.1 = true) ?_ hm hm' hp
  intro a b _ _ h1 h2
  rw [Name.lt_asymm h1] at h2
  simp at h2

theorem find_eq_none {m : NMap β} {k : Name} : find m k = none ↔ ∀ v, (k, v) ∉ m := by
  constructor
  · intro h v hv
    have : k ∈ keys m := List.mem_map.mpr ⟨(k, v), hv, rfl⟩
    rw [mem_keys, h] at this
    simp at this
  · intro h
    cases hf : find m k with
    | none => rfl
    | some v => exact absurd (mem_of_find hf) (h v)

end NMap
end PSync
