import Verif.Spec.Salts
import Verif.Model.Salts
/-!
C91: a filter has as many different hash functions as it was made for.
-/
namespace PSync
open Spec

/-- The mixing loop after `m` rounds. -/
theorem mix_rounds (s : List U32) (m : Nat) (hm : m ≤ s.length) :
    let t := (List.range m).foldl (fun s i => s.set i (s.getD i 0#32 * s.getD ((i + 3) % s.length) 0#32 + bloomSeed32)) s
    t.length = s.length ∧ (∀ i, m ≤ i → t[i]? = s[i]?) ∧
    ∀ i, i < m → ∃ a b, s[i]? = some a ∧
      (if (i + 3) % s.length < i then t[(i + 3) % s.length]? else s[(i + 3) % s.length]?) = some b ∧
      t[i]? = some (a * b + bloomSeed32) := by
  induction m with
  | zero => exact ⟨rfl, fun _ _ => rfl, fun i hi => absurd hi (Nat.not_lt_zero i)⟩
  | succ m ih =>
    obtain ⟨h1, h2, h3⟩ := ih (by omega)
    simp only [List.range_succ, List.foldl_append, List.foldl_cons, List.foldl_nil]
    generalize (List.range m).foldl (fun s i => s.set i (s.getD i 0#32 * s.getD ((i + 3) % s.length) 0#32 + bloomSeed32)) s = t
      at h1 h2 h3
    have hj : (m + 3) % s.length < s.length := Nat.mod_lt _ (by omega)
    refine ⟨by rw [List.length_set, h1], ?_, ?_⟩
    · intro i hi
      rw [List.getElem?_set_ne (by omega)]
      exact h2 i (by omega)
    · intro i hi
      by_cases him : i = m
      · subst him
        have hi' : i < s.length := by omega
        refine ⟨s[i], t.getD ((i + 3) % s.length) 0#32, List.getElem?_eq_getElem hi', ?_, ?_⟩
        · have e : t[(i + 3) % s.length]? = some (t.getD ((i + 3) % s.length) 0#32) := by
            rw [List.getD_eq_getElem?_getD, List.getElem?_eq_getElem (by omega)]; rfl
          split
          · rw [List.getElem?_set_ne (by omega)]; exact e
          · rw [← h2 _ (by omega)]; exact e
        · rw [List.getElem?_set_self (by omega), h1, List.getD_eq_getElem?_getD (l := t) (i := i), h2 i (Nat.le_refl _),
            List.getElem?_eq_getElem hi']
          rfl
      · obtain ⟨a, b, g1, g2, g3⟩ := h3 i (by omega)
        refine ⟨a, b, g1, ?_, ?_⟩
        · split at g2
          · rw [if_pos (by assumption), List.getElem?_set_ne (by omega)]; exact g2
          · rw [if_neg (by assumption)]; exact g2
        · rw [List.getElem?_set_ne (by omega)]; exact g3

/-- C91, what the loop that mixes does: every salt is multiplied with the one three places further on, and the seed is added. -/
theorem c91_mixed (p : List U32) : Mixed 0xB67A3E03#32 p (mixSalts p) := by
  obtain ⟨h1, _, h3⟩ := mix_rounds p p.length (Nat.le_refl _)
  exact ⟨h1, h3⟩

theorem distinct_of_nodup {l : List U32} (h : l.Nodup) : ∀ (i j : Nat) (a : U32), l[i]? = some a → l[j]? = some a → i = j := by
  intro i j a hi hj
  obtain ⟨h1, rfl⟩ := List.getElem?_eq_some_iff.mp hi
  obtain ⟨h2, h3⟩ := List.getElem?_eq_some_iff.mp hj
  exact ((List.Nodup.getElem_inj_iff h).mp h3).symm

theorem predef_good : predefSalt.Nodup ∧ 0#32 ∉ predefSalt ∧ predefSalt.length = 128 := by
  decide +kernel

/-- The predefined salts but the last three, mixed: they are the same for every number of hash functions. -/
def mixedSalts : List U32 := [
  0x2DF1B57B#32, 0x94581BE1#32, 0xFE28527E#32, 0x584F463F#32, 0x985C1FE5#32, 0x5046D7D0#32, 0x8B118A12#32, 0xA73E2EC7#32,
  0x7235D7E1#32, 0x53957B7E#32, 0xEC0BC93F#32, 0x46FE3DE5#32, 0xBE01329D#32, 0xBEC90F12#32, 0xB0C49CC7#32, 0xCD2341BF#32,
  0xF7769A7E#32, 0xBB5E2F3F#32, 0xDF0542E5#32, 0x5CDE489D#32, 0x0903E612#32, 0xC5854CC7#32, 0x298D7DBF#32, 0xFABE9A7E#32,
  0x83472F3F#32, 0xFE2842E5#32, 0x584F489D#32, 0x5013D74E#32, 0x1D2F3E03#32, 0xBAAC7311#32, 0xF5612124#32, 0x07C73E03#32,
  0xDE841DF8#32, 0xD552F193#32, 0x64D44365#32, 0x19BE23FC#32, 0x5414E353#32, 0x86231A1F#32, 0x66770436#32, 0x4AB34E0C#32,
  0x873580A9#32, 0x96C13E2D#32, 0xCB5062A4#32, 0xBA967E1B#32, 0x20E6EE27#32, 0x32C04659#32, 0x04B81CFB#32, 0x0544CAC7#32,
  0x17BF3FB7#32, 0xD2AEDF1D#32, 0x360A1DD3#32, 0x8EC80FE1#32, 0xCFCCA58D#32, 0xF343639B#32, 0x24ABC1AF#32, 0xBF825EDC#32,
  0x52DA8D88#32, 0x0599B9B3#32, 0x300AF10F#32, 0x2D6F0459#32, 0x049A651B#32, 0x75FFCC0B#32, 0x1870C105#32, 0x65DFAF95#32,
  0x7FE1CBBB#32, 0x42BF6E2F#32, 0x901CFCCF#32, 0x7C8E92BF#32, 0x15492587#32, 0x76F7FF1F#32, 0xD4B68FDE#32, 0xB9195E60#32,
  0x7E613A00#32, 0xD408BA04#32, 0xB4D3C2A3#32, 0x6A9AF65C#32, 0x35EBAB3B#32, 0x90FF0FE3#32, 0xC95AF73E#32, 0xCEB3EA43#32,
  0x318C56DB#32, 0x37AC165D#32, 0xAD705A9B#32, 0x0BB6666B#32, 0xF18DF34F#32, 0x48999827#32, 0x2341FAD3#32, 0x2DC12719#32,
  0x154DE747#32, 0x21190B53#32, 0xF580F250#32, 0x77756288#32, 0xB4971A7D#32, 0x610D6C06#32, 0xFE91896A#32, 0xF209F60F#32,
  0xCF0EC284#32, 0x68D9E2CA#32, 0xE87679EB#32, 0x4E5DD6AF#32, 0x2657C26D#32, 0xB0EA7F1F#32, 0xF332F5EF#32, 0x0C2C0685#32,
  0x8BF05EFE#32, 0xFEB40E54#32, 0x1AB6F5AF#32, 0x8F20579E#32, 0xF23CE2E1#32, 0xD98A71AF#32, 0x39B6D5B7#32, 0xD5BD7A41#32,
  0x74B52B3A#32, 0xE1336657#32, 0x76985F18#32, 0xA8AD81F2#32, 0x8131C596#32, 0x80580A2D#32, 0xECB6F6F6#32, 0x24225283#32,
  0xBA93A9BB#32, 0x799D9C5C#32, 0xB6C3D883#32, 0x6C818233#32, 0x70C0F618#32]

/-- The three last salts when there are `n`. -/
def lastSalts (n : Nat) : List U32 :=
  [predefSalt.getD (n - 3) 0#32 * mixedSalts.getD 0 0#32 + bloomSeed32, predefSalt.getD (n - 2) 0#32 * mixedSalts.getD 1 0#32 + bloomSeed32,
    predefSalt.getD (n - 1) 0#32 * mixedSalts.getD 2 0#32 + bloomSeed32]

theorem mixedSalts_eq : mixedSalts = List.zipWith (fun a b => a * b + bloomSeed32) (predefSalt.take 125) (predefSalt.drop 3) := by
  decide +kernel

theorem mixedSalts_good : mixedSalts.Nodup ∧ 0#32 ∉ mixedSalts ∧ mixedSalts.length = 125 := by
  decide +kernel

/-- `e` is not in the list; a function that the kernel evaluates fast. -/
def notIn (e : Nat) : List Nat → Bool
  | [] => true
  | b :: l => match Nat.beq e b with
    | true => false
    | false => notIn e l

theorem notIn_spec {e : Nat} {l : List Nat} (h : notIn e l = true) : e ∉ l := by
  induction l with
  | nil => simp
  | cons b l ih =>
    unfold notIn at h
    cases hb : Nat.beq e b with
    | true => rw [hb] at h; cases h
    | false =>
      rw [hb] at h
      rw [List.mem_cons]
      rintro (rfl | h')
      · rw [Nat.beq_refl] at hb; cases hb
      · exact ih h h'

/-- Makes the kernel evaluate `n` before it is used many times. -/
def withValue (n : Nat) (f : Nat → Bool) : Bool :=
  match n with
  | 0 => f 0
  | k + 1 => f (k + 1)

theorem withValue_eq (n : Nat) (f : Nat → Bool) : withValue n f = f n := by
  cases n <;> rfl

theorem other_salts : (predefSalt.all fun a => (mixedSalts.take 3).all fun x =>
    withValue (a * x + bloomSeed32).toNat fun e => notIn e (mixedSalts.map (·.toNat))) = true := by
  decide +kernel

theorem lastSalts_good (n : Nat) (hn : n ≤ 128) (h6 : 6 ≤ n) :
    (lastSalts n).Nodup ∧ 0#32 ∉ lastSalts n ∧ ∀ a ∈ lastSalts n, a ∉ mixedSalts := by
  have h : ∀ n ∈ List.range 129, 6 ≤ n → (lastSalts n).Nodup ∧ 0#32 ∉ lastSalts n := by
    decide +kernel
  obtain ⟨h1, h2⟩ := h n (List.mem_range.mpr (by omega)) h6
  refine ⟨h1, h2, ?_⟩
  have key : ∀ k i, k < 128 → i < 3 → predefSalt.getD k 0#32 * mixedSalts.getD i 0#32 + bloomSeed32 ∉ mixedSalts := by
    intro k i hk hi hm
    have ho := other_salts
    rw [List.all_eq_true] at ho
    have h3 := ho (predefSalt.getD k 0#32) (by
      rw [List.getD_eq_getElem?_getD, List.getElem?_eq_getElem (by rw [predef_good.2.2]; exact hk)]
      exact List.getElem_mem _)
    rw [List.all_eq_true] at h3
    have h4 := h3 (mixedSalts.getD i 0#32) (by
      have hl : i < mixedSalts.length := by rw [mixedSalts_good.2.2]; omega
      apply List.mem_of_getElem? (i := i)
      rw [List.getElem?_take_of_lt hi, List.getD_eq_getElem?_getD, List.getElem?_eq_getElem hl]
      rfl)
    rw [withValue_eq] at h4
    exact notIn_spec h4 (List.mem_map_of_mem hm)
  intro a ha
  simp only [lastSalts, List.mem_cons, List.not_mem_nil, or_false] at ha
  rcases ha with rfl | rfl | rfl
  · exact key _ 0 (by omega) (by omega)
  · exact key _ 1 (by omega) (by omega)
  · exact key _ 2 (by omega) (by omega)

theorem tiny_salts : ∀ n, n < 6 → (mixSalts (predefSalt.take n)).Nodup ∧ 0#32 ∉ mixSalts (predefSalt.take n) := by
  have h : ∀ n ∈ List.range 6, (mixSalts (predefSalt.take n)).Nodup ∧ 0#32 ∉ mixSalts (predefSalt.take n) := by
    decide +kernel
  exact fun n hn => h n (List.mem_range.mpr hn)

/-- A salt that is not among the last three. -/
theorem mix_front {n i : Nat} (hn : n ≤ 128) (hi : i + 3 < n) : (mixSalts (predefSalt.take n))[i]? = mixedSalts[i]? := by
  have hl : (predefSalt.take n).length = n := by rw [List.length_take, predef_good.2.2]; omega
  obtain ⟨_, h⟩ := c91_mixed (predefSalt.take n)
  obtain ⟨a, b, h1, h2, h3⟩ := h i (by omega)
  rw [hl, Nat.mod_eq_of_lt hi, if_neg (by omega), List.getElem?_take_of_lt hi] at h2
  rw [List.getElem?_take_of_lt (by omega)] at h1
  rw [h3, mixedSalts_eq, List.getElem?_zipWith, List.getElem?_take_of_lt (by omega), h1, List.getElem?_drop, Nat.add_comm 3 i, h2]
  rfl

theorem mix_back {n i : Nat} (hn : n ≤ 128) (h6 : 6 ≤ n) (hi : i < 3) :
    (mixSalts (predefSalt.take n))[n - 3 + i]? = some (predefSalt.getD (n - 3 + i) 0#32 * mixedSalts.getD i 0#32 + bloomSeed32) := by
  have hl : (predefSalt.take n).length = n := by rw [List.length_take, predef_good.2.2]; omega
  obtain ⟨_, h⟩ := c91_mixed (predefSalt.take n)
  obtain ⟨a, b, h1, h2, h3⟩ := h (n - 3 + i) (by omega)
  have hm : (n - 3 + i + 3) % n = i := by
    rw [show n - 3 + i + 3 = i + n by omega, Nat.add_mod_right, Nat.mod_eq_of_lt (by omega)]
  rw [hl, hm, if_pos (by omega), mix_front hn (by omega)] at h2
  rw [List.getElem?_take_of_lt (by omega)] at h1
  rw [h3, List.getD_eq_getElem?_getD, List.getD_eq_getElem?_getD, h1, h2]
  rfl

theorem mix_split {n : Nat} (hn : n ≤ 128) (h6 : 6 ≤ n) : mixSalts (predefSalt.take n) = mixedSalts.take (n - 3) ++ lastSalts n := by
  have hl : (mixSalts (predefSalt.take n)).length = n := by
    rw [(c91_mixed _).1, List.length_take, predef_good.2.2]; omega
  have ht : (mixedSalts.take (n - 3)).length = n - 3 := by rw [List.length_take, mixedSalts_good.2.2]; omega
  apply List.ext_getElem?
  intro i
  by_cases h1 : i < n - 3
  · rw [List.getElem?_append_left (by omega), List.getElem?_take_of_lt h1, mix_front hn (by omega)]
  · rw [List.getElem?_append_right (by omega), ht]
    by_cases h2 : i < n
    · obtain ⟨k, rfl⟩ : ∃ k, i = n - 3 + k := ⟨i - (n - 3), by omega⟩
      rw [mix_back hn h6 (by omega), Nat.add_sub_cancel_left]
      have hk : k < 3 := by omega
      match k, hk with
      | 0, _ => rfl
      | 1, _ => rw [show n - 3 + 1 = n - 2 by omega]; rfl
      | 2, _ => rw [show n - 3 + 2 = n - 1 by omega]; rfl
    · rw [List.getElem?_eq_none (by omega), List.getElem?_eq_none (by simp only [lastSalts, List.length_cons, List.length_nil]; omega)]

theorem few_salts (n : Nat) (hn : n ≤ 128) : (mixSalts (predefSalt.take n)).Nodup ∧ 0#32 ∉ mixSalts (predefSalt.take n) := by
  by_cases h6 : 6 ≤ n
  · rw [mix_split hn h6]
    obtain ⟨h1, h2, h3⟩ := lastSalts_good n hn h6
    refine ⟨?_, ?_⟩
    · rw [List.nodup_append]
      exact ⟨mixedSalts_good.1.sublist (List.take_sublist _ _), h1, by rintro a ha b hb rfl; exact h3 a hb (List.mem_of_mem_take ha)⟩
    · rw [List.mem_append]
      rintro (h | h)
      · exact mixedSalts_good.2.1 (List.mem_of_mem_take h)
      · exact h2 h
  · exact tiny_salts n (by omega)

theorem saltDraw_good {rand : Nat → U32} {acc : List U32} {m : Nat} (h : acc.Nodup ∧ 0#32 ∉ acc) :
    (saltDraw rand acc m).Nodup ∧ 0#32 ∉ saltDraw rand acc m := by
  unfold saltDraw
  simp only
  split
  · exact h
  · rename_i h0
    split
    · exact h
    · rename_i h1
      refine ⟨?_, ?_⟩
      · rw [List.nodup_append]
        exact ⟨h.1, by simp, by rintro a ha b hb rfl; rw [List.mem_singleton] at hb; exact h1 (hb ▸ ha)⟩
      · rw [List.mem_append, List.mem_singleton]
        rintro (h2 | h2)
        · exact h.2 h2
        · exact h0 h2.symm

theorem saltDraw_prefix (rand : Nat → U32) (acc : List U32) (m : Nat) : acc <+: saltDraw rand acc m ∧ (saltDraw rand acc m).length ≤ acc.length + 1 := by
  unfold saltDraw
  simp only
  split
  · exact ⟨List.prefix_refl _, by omega⟩
  · split
    · exact ⟨List.prefix_refl _, by omega⟩
    · exact ⟨List.prefix_append _ _, by simp⟩

theorem saltLoop_good {rand : Nat → U32} {n : Nat} : ∀ {fuel m : Nat} {acc l : List U32}, acc.Nodup ∧ 0#32 ∉ acc → acc.length ≤ n →
    saltLoop rand n fuel m acc = .ok l → GoodSalts n l := by
  intro fuel
  induction fuel with
  | zero => intro m acc l _ _ h; cases h
  | succ fuel ih =>
    intro m acc l hg hl h
    rw [saltLoop] at h
    split at h
    · exact ih (saltDraw_good hg) (by have := (saltDraw_prefix rand acc m).2; omega) h
    · cases h
      exact ⟨by omega, distinct_of_nodup hg.1, hg.2⟩

/-- C91: whenever the salts of a filter with `n` hash functions are made, there are `n` of them, no two of them equal and none zero -
for every number of hash functions, whatever `rand()` returns. -/
theorem c91_good (rand : Nat → U32) (fuel n : Nat) (l : List U32) (h : uniqueSalts rand fuel n = .ok l) : GoodSalts n l := by
  unfold uniqueSalts at h
  split at h
  · rename_i hn
    cases h
    obtain ⟨h1, h2⟩ := few_salts n hn
    refine ⟨?_, distinct_of_nodup h1, h2⟩
    rw [(c91_mixed _).1, List.length_take, predef_good.2.2]
    omega
  · exact saltLoop_good ⟨predef_good.1, predef_good.2.1⟩ (by rw [predef_good.2.2]; omega) h

/-- The salts after `m` rounds of the random loop. -/
def drawn (rand : Nat → U32) : Nat → List U32
  | 0 => predefSalt
  | m + 1 => saltDraw rand (drawn rand m) m

theorem drawn_mono (rand : Nat → U32) {m m' : Nat} (h : m ≤ m') : drawn rand m <+: drawn rand m' := by
  induction h with
  | refl => exact List.prefix_refl _
  | step _ ih => exact ih.trans (saltDraw_prefix rand _ _).1

theorem saltLoop_drawn {rand : Nat → U32} {n : Nat} : ∀ {fuel m : Nat} {l : List U32}, saltLoop rand n fuel m (drawn rand m) = .ok l →
    ∃ k, l = drawn rand k ∧ n ≤ l.length := by
  intro fuel
  induction fuel with
  | zero => intro m l h; cases h
  | succ fuel ih =>
    intro m l h
    rw [saltLoop] at h
    split at h
    · exact ih (m := m + 1) h
    · cases h
      exact ⟨m, rfl, by omega⟩

open Classical in
/-- C91, the link to the model of the filter: all filters of a process, whatever their number of hash functions, have the salts
that `genSalts` describes with one and the same stream of accepted random numbers.  In particular two filters with the same number
of hash functions have the same salts. -/
theorem c91_model (rand : Nat → U32) : ∃ extra : Nat → U32, ∀ fuel n l, uniqueSalts rand fuel n = .ok l → l = genSalts extra n := by
  refine ⟨fun i => if h : ∃ k a, (drawn rand k)[128 + i]? = some a then h.choose_spec.choose else 0#32, ?_⟩
  intro fuel n l h
  have hg := c91_good rand fuel n l h
  unfold uniqueSalts at h
  unfold genSalts
  split at h
  · rename_i hn
    cases h
    rw [if_pos hn]
  · rename_i hn
    rw [if_neg hn]
    obtain ⟨k, rfl, hk⟩ := saltLoop_drawn (m := 0) h
    have hp : predefSalt <+: drawn rand k := drawn_mono rand (Nat.zero_le k)
    obtain ⟨r, hr⟩ := hp
    have hlen : r.length = n - 128 := by
      have := hg.count
      rw [← hr, List.length_append, predef_good.2.2] at this
      omega
    rw [← hr, List.append_right_inj]
    apply List.ext_getElem?
    intro i
    rw [List.getElem?_map]
    by_cases hi : i < n - 128
    · rw [List.getElem?_range hi, List.getElem?_eq_getElem (by omega)]
      simp only [Option.map_some, Option.some.injEq]
      have hx : (drawn rand k)[128 + i]? = some (r[i]'(by omega)) := by
        rw [← hr, List.getElem?_append_right (by rw [predef_good.2.2]; omega), predef_good.2.2, Nat.add_sub_cancel_left,
          List.getElem?_eq_getElem]
      have he : ∃ k a, (drawn rand k)[128 + i]? = some a := ⟨k, _, hx⟩
      rw [dif_pos he]
      have hy := he.choose_spec.choose_spec
      generalize he.choose_spec.choose = y at hy ⊢
      generalize he.choose = k' at hy
      rcases Nat.le_total k k' with hle | hle
      · obtain ⟨q, hq⟩ := drawn_mono rand hle
        have hk' : 128 + i < (drawn rand k).length := by omega
        rw [← hq, List.getElem?_append_left hk', hx] at hy
        exact Option.some.inj hy
      · obtain ⟨q, hq⟩ := drawn_mono rand hle
        have hk' := (List.getElem?_eq_some_iff.mp hy).1
        rw [← hq, List.getElem?_append_left hk', hy] at hx
        exact (Option.some.inj hx).symm
    · rw [List.getElem?_eq_none (by omega), List.getElem?_eq_none (by rw [List.length_range]; omega)]
      rfl

/-- Non-vacuity: the ten salts of a filter with the default probability 0.001, and 131 salts of a filter with an extreme one; the
zero and the repeated number that `rand()` yields are skipped. -/
example : uniqueSalts (fun _ => 0#32) 0 10 = .ok [0x2DF1B57B#32, 0x94581BE1#32, 0xFE28527E#32, 0x584F463F#32, 0x985C1FE5#32,
      0x5046D7D0#32, 0x8B118A12#32, 0x307E720C#32, 0x25F3E9B8#32, 0x0100831D#32] ∧
    (uniqueSalts (fun k => [5#32, 7#32, 0#32, 3#32, 35#32, 1#32, 2#32, 3#32, 9#32, 9#32].getD k 0#32) 6 131 =
      .ok (predefSalt ++ [35#32, 6#32, 81#32])) := by
  decide +kernel

end PSync
