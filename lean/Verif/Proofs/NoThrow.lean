import Verif.Proofs.Total
import Verif.Proofs.Partial
/-!
Which computations raise no exception.
-/
namespace PSync
open Spec

namespace Res

/-- The computation does not end in an exception. -/
def NoThrow {α : Type} (x : Res α) : Prop := ∀ e, x ≠ .throw e

theorem NoThrow.ok {α : Type} (a : α) : (Res.ok a).NoThrow := by intro e h; cases h
theorem NoThrow.ub {α : Type} (u : UB) : (Res.ub u : Res α).NoThrow := by intro e h; cases h
theorem NoThrow.hang {α : Type} : (Res.hang : Res α).NoThrow := by intro e h; cases h

theorem NoThrow.of_ok {α : Type} {x : Res α} (h : ∃ a, x = .ok a) : x.NoThrow := by
  obtain ⟨a, rfl⟩ := h; exact .ok a

theorem NoThrow.bind {α β : Type} {x : Res α} {f : α → Res β} (hx : x.NoThrow) (hf : ∀ a, x = .ok a → (f a).NoThrow) :
    (Res.bind x f).NoThrow := by
  cases x with
  | ok a => exact hf a rfl
  | throw e => exact absurd rfl (hx e)
  | ub u => exact .ub u
  | hang => exact .hang

end Res
open Res

theorem foldRes_noThrow {σ ι : Type} {f : σ → ι → Res σ} {P : σ → Prop} (l : List ι)
    (hf : ∀ s, P s → ∀ x ∈ l, (f s x).NoThrow) (hP : ∀ s x s', x ∈ l → P s → f s x = .ok s' → P s') :
    ∀ s, P s → (foldRes f s l).NoThrow := by
  induction l with
  | nil => intro s _; exact .ok s
  | cons x l ih =>
    intro s hs
    refine NoThrow.bind (hf s hs x (by simp)) fun s' h => ?_
    exact ih (fun s hs y hy => hf s hs y (by simp [hy])) (fun s y s' hy => hP s y s' (by simp [hy])) s'
      (hP s x s' (by simp) hs h)

theorem updateAt_noThrow {t : Table} {idx : Nat} (h : idx < t.length) (pm : Int) (k : U32) : (t.updateAt idx pm k).NoThrow := by
  unfold Table.updateAt
  rw [List.getElem?_eq_getElem h]
  simp only
  refine NoThrow.bind ?_ fun _ _ => .ok _
  unfold Cell.update
  split
  · exact .ok _
  · exact .ub _

theorem ibltUpdate_noThrow (t : Table) (pm : Int) (k : U32) : (ibltUpdate t pm k).NoThrow := by
  unfold ibltUpdate
  simp only
  split
  · exact .ub _
  · rename_i hb
    refine foldRes_noThrow (P := fun t' : Table => t'.length = t.length) _ ?_ ?_ t rfl
    · intro s hs i hi
      apply updateAt_noThrow
      rw [hs]
      have hi : i < 3 := by simpa [N_HASH] using hi
      have hb' : 0 < t.length / N_HASH := Nat.pos_of_ne_zero hb
      have h1 : (murmur32 (BitVec.ofNat 32 i) k).toNat % (t.length / N_HASH) < t.length / N_HASH := Nat.mod_lt _ hb'
      have h2 : t.length / N_HASH * 3 ≤ t.length := by simpa [N_HASH] using Nat.div_mul_le_self t.length 3
      unfold cellIdx
      have h3 : (i + 1) * (t.length / N_HASH) ≤ 3 * (t.length / N_HASH) := Nat.mul_le_mul_right _ (by omega)
      have h4 : (i + 1) * (t.length / N_HASH) = i * (t.length / N_HASH) + t.length / N_HASH := by
        rw [Nat.add_mul, Nat.one_mul]
      omega
    · intro s x s' _ hs h
      obtain ⟨c, _, _, rfl⟩ := updateAt_ok h
      simpa using hs

theorem peelAt_noThrow (p : Peel) (j : Nat) : (peelAt p j).NoThrow := by
  unfold peelAt
  split
  · exact .ok _
  · split
    · refine NoThrow.bind (ibltUpdate_noThrow _ _ _) fun _ _ => ?_
      split <;> exact .ok _
    · exact .ok _

theorem peelLoop_noThrow (fuel : Nat) : ∀ p, (peelLoop fuel p).NoThrow := by
  induction fuel with
  | zero => intro p; exact .hang
  | succ f ih =>
    intro p
    refine NoThrow.bind ?_ fun p' _ => ?_
    · exact foldRes_noThrow (P := fun _ => True) _ (fun s _ x _ => peelAt_noThrow s x) (fun _ _ _ _ _ _ => trivial) _ trivial
    · split
      · exact ih p'
      · exact .ok _

theorem sub_noThrow : ∀ l r : Table, (Table.sub l r).NoThrow
  | [], [] => .ok _
  | l :: ls, r :: rs => by
    unfold Table.sub
    refine NoThrow.bind ?_ fun _ _ => NoThrow.bind (sub_noThrow ls rs) fun _ _ => .ok _
    unfold Cell.sub
    split
    · exact .ok _
    · exact .ub _
  | [], r :: rs => .ub _
  | l :: ls, [] => .ub _

theorem diff_noThrow (fuel : Nat) (l r : Table) : (Table.diff fuel l r).NoThrow := by
  unfold Table.diff
  exact NoThrow.bind (sub_noThrow _ _) fun _ _ => NoThrow.bind (peelLoop_noThrow _ _) fun _ _ => .ok _

theorem getFromEnd_noThrow (n : Name) (k : Nat) : (n.getFromEnd k).NoThrow := by
  unfold Name.getFromEnd
  simp only
  generalize (if (n.length : Int) - k < 0 then (n.length : Int) - k + n.length else (n.length : Int) - k) = i
  split
  · cases n[i.toNat]? with
    | some c => exact .ok _
    | none => exact .ub _
  · exact .ub _

theorem containsLoop_noThrow (bf : Bloom) (n : Name) : ∀ ss, (bf.containsLoop n ss).NoThrow
  | [] => .ok _
  | s :: ss => by
    unfold Bloom.containsLoop
    split
    · exact .ub _
    · simp only
      split
      · exact .ub _
      · split
        · exact .ok _
        · exact containsLoop_noThrow bf n ss

theorem contains_noThrow (bf : Bloom) (n : Name) : (bf.contains n).NoThrow := containsLoop_noThrow bf n bf.salts

theorem toComponent_total {cdc : Codec} (hl : cdc.Lossless) (t : Table) : ∃ c, t.toComponent cdc = .ok c := by
  unfold Table.toComponent
  obtain ⟨y, h1, _⟩ := hl t.encode
  rw [h1]
  exact ⟨_, rfl⟩

theorem nackData_total {cfg : Cfg} (hl : cfg.ibltCodec.Lossless) (b : Base) (n : Name) : ∃ d, nackData cfg b n = .ok d := by
  unfold nackData
  obtain ⟨c, h⟩ := toComponent_total hl b.iblt
  rw [h]
  exact ⟨_, rfl⟩

namespace Part

theorem publish_total {cfg : Cfg} {s : Part} {name : Name} (hn : name ≠ []) (dname : Name) (buf : Bytes) (fr : Nat) :
    ∃ s', publish cfg s name dname buf fr = .ok s' := by
  unfold publish SegPub.publish
  rw [getFromEnd_one hn]
  generalize name.getLast hn = c
  simp only [Res.ok_bind]
  by_cases hs : Component.isSegment c = true
  · have : ∃ q, Component.toNumber c = .ok q := by
      unfold Component.isSegment at hs
      simp only [Bool.and_eq_true] at hs
      obtain ⟨q, hq⟩ := Option.isSome_iff_exists.mp hs.2
      exact ⟨q, by unfold Component.toNumber; rw [hq]; rfl⟩
    obtain ⟨q, hq⟩ := this
    simp only [hs, if_true, hq, Res.ok_bind]
    exact ⟨_, rfl⟩
  · simp only [hs, Bool.false_eq_true, if_false, Res.ok_bind]
    exact ⟨_, rfl⟩

theorem collect_noThrow (b : Base) (bf : Bloom) : ∀ hs acc, (collect b bf hs acc).NoThrow
  | [], acc => .ok _
  | h :: hs, acc => by
    unfold collect
    split
    · exact collect_noThrow b bf hs acc
    · exact NoThrow.bind (contains_noThrow _ _) fun _ _ => collect_noThrow b bf hs _

theorem onSyncParsed_noThrow {cfg : Cfg} (hwf : cfg.WF) (s : Part) (i : Interest) (hi : i.name ≠ []) (n : Name) (bf : Bloom)
    (t : Table) : (onSyncParsed cfg s i n bf t).NoThrow := by
  unfold onSyncParsed
  refine NoThrow.bind (diff_noThrow _ _ _) fun d _ => ?_
  split
  · exact NoThrow.bind (.of_ok (nackData_total hwf.iblt_lossless _ _)) fun _ _ => .ok _
  · refine NoThrow.bind (collect_noThrow _ _ _ _) fun content _ => ?_
    split
    · exact NoThrow.bind (.of_ok (toComponent_total hwf.iblt_lossless _)) fun _ _ => .of_ok (publish_total hi _ _ _)
    · exact .ok _

theorem onSyncInterest_noThrow {cfg : Cfg} (hwf : cfg.WF) (s : Part) (i : Interest) (hi : i.name ≠ []) :
    (onSyncInterest cfg s i).NoThrow := by
  unfold onSyncInterest
  cases s.pub.replyFromStore i.name with
  | some d => exact .ok _
  | none =>
    simp only
    split
    · exact .ok _
    · generalize extract (if (i.name.drop (cfg.syncPrefix.length + 1)).length = 4 then i.name else Name.dropLast i.name 2) = x
      cases x with
      | throw e => exact .ok _
      | ub u => exact .ub _
      | hang => exact .hang
      | ok x =>
        obtain ⟨count, fpp, c3, c4⟩ := x
        simp only
        generalize (Res.bind (Bloom.ofComponent cfg.libm cfg.extraSalt count (cfg.libm.ofThousandths fpp) c3)
          (fun bf => Res.bind (Table.initialize cfg.ibltCodec cfg.expected c4) fun t => .ok (bf, t))) = y
        cases y with
        | throw e => exact .ok _
        | ub u => exact .ub _
        | hang => exact .hang
        | ok y => exact onSyncParsed_noThrow hwf s i hi _ _ _

theorem onHelloInterest_noThrow {cfg : Cfg} (hwf : cfg.WF) (s : Part) (i : Interest) (hi : i.name ≠ []) :
    (onHelloInterest cfg s i).NoThrow := by
  unfold onHelloInterest
  cases s.pub.replyFromStore i.name with
  | some d => exact .ok _
  | none =>
    simp only
    refine NoThrow.bind (getFromEnd_noThrow _ _) fun last _ => NoThrow.bind ?_ fun c4 _ => ?_
    · split
      · exact .ok _
      · exact getFromEnd_noThrow _ _
    · split
      · exact .ok _
      · exact NoThrow.bind (.of_ok (toComponent_total hwf.iblt_lossless _)) fun _ _ => .of_ok (publish_total hi _ _ _)

end Part

namespace Full

/-- onSyncInterest raises an exception only through the number at the end of the name. -/
theorem onSyncInterest_noThrow {cfg : Cfg} (hwf : cfg.WF) (s : Full) (i : Interest) (t : Bool) (hi : i.name ≠ [])
    (hlast : (i.name.drop cfg.syncPrefix.length).length = 2 → (readNni (i.name.getLast hi).value).isSome = true) :
    (onSyncInterest cfg s i t).NoThrow := by
  unfold onSyncInterest
  cases s.pub.replyFromStore i.name with
  | some d => exact .ok _
  | none =>
    simp only
    split
    · exact NoThrow.bind (.of_ok (nackData_total hwf.iblt_lossless _ _)) fun _ _ => .ok _
    · split
      · exact .ok _
      · rename_i h2
        have h2 : (i.name.drop cfg.syncPrefix.length).length = 2 := by simpa using h2
        refine NoThrow.bind (getFromEnd_noThrow _ _) fun c2 _ => ?_
        rw [getFromEnd_one hi, Res.ok_bind]
        obtain ⟨q, hq⟩ := Option.isSome_iff_exists.mp (hlast h2)
        have hq' : Component.toNumber (i.name.getLast hi) = .ok q := by
          unfold Component.toNumber; rw [hq]; rfl
        rw [hq', Res.ok_bind]
        cases Table.initialize cfg.ibltCodec cfg.expected c2 with
        | throw e => exact .ok _
        | ub u => exact .ub _
        | hang => exact .hang
        | ok iblt =>
          refine NoThrow.bind (diff_noThrow _ _ _) fun d _ => ?_
          split
          · exact .of_ok (onUndecodable_total hwf hi)
          · exact .of_ok (onDecoded_total hwf hi)

end Full
end PSync
