import Verif.Proofs.Honest
import Verif.Proofs.Pending
/-!
Operations of a FullProducer that cannot fail.
-/
namespace PSync
open Spec

namespace Base

/-- Something was published, unless nothing ever happened to the table or a prefix was removed. -/
def Busy (e : Nat) (b : Base) : Prop :=
  (b.hist = [] → b.iblt = Table.new e) ∧
  (b.hist ≠ [] → (∀ p q, BaseEv.remove p q ∉ b.hist) → ∃ p x, b.prefixes.find p = some x ∧ x ≠ 0)

theorem busy_new (cfg : Cfg) : Busy cfg.expected (Base.new cfg) :=
  ⟨fun _ => rfl, fun h => absurd rfl h⟩

theorem Step.busy {R : Name → Prop} {e : Nat} {b b' : Base} (h : Step R b b') (hs : b.Busy e) : b'.Busy e := by
  cases h with
  | add p =>
    have hf := find_addUserNode b p
    have h1 : (b.addUserNode p).2.iblt = b.iblt := by unfold addUserNode; cases b.prefixes.find p <;> rfl
    have h2 : (b.addUserNode p).2.hist = b.hist := by unfold addUserNode; cases b.prefixes.find p <;> rfl
    refine ⟨fun h => h1.trans (hs.1 (h2 ▸ h)), fun h hr => ?_⟩
    obtain ⟨q, x, hq, hx⟩ := hs.2 (h2 ▸ h) (fun p q hm => hr p q (h2 ▸ hm))
    refine ⟨q, x, ?_, hx⟩
    rw [hf]
    split
    · rename_i e; subst e; rw [hq]; rfl
    · exact hq
  | remove p _ h =>
    unfold removeUserNode at h
    cases hp : b.prefixes.find p with
    | none => simp only [hp, Res.ok.injEq] at h; subst h; exact hs
    | some s =>
      simp only [hp] at h
      obtain ⟨_, _, h3, _⟩ := eraseName_ok h
      have hm : BaseEv.remove p s ∈ b'.hist := by rw [h3]; simp
      exact ⟨fun h => by rw [h] at hm; simp at hm, fun _ hr => absurd hm (hr _ _)⟩
  | update p q hq h =>
    rcases updateSeqNo_ok h with ⟨rfl, _⟩ | ⟨s, b1, t, hp, hlt, h1, _, _, _, h2, rfl⟩
    · exact hs
    · refine ⟨fun h => by simp at h, fun _ _ => ⟨p, q, ?_, by omega⟩⟩
      show NMap.find _ p = _
      rw [NMap.find_set, if_pos rfl]

theorem Steps.busy {R : Name → Prop} {e : Nat} {b b' : Base} (h : Steps R b b') (hs : b.Busy e) : b'.Busy e := by
  induction h with
  | refl => exact hs
  | tail _ h ih => exact h.busy ih

theorem sum_zero : ∀ {l : List Nat}, l.sum = 0 → ∀ x ∈ l, x = 0
  | [], _, x, hx => by simp at hx
  | a :: l, h, x, hx => by
    rw [List.sum_cons] at h
    rcases List.mem_cons.mp hx with rfl | hx
    · omega
    · exact sum_zero (by omega) x hx

theorem sum_zero' : ∀ {l : List Nat}, (∀ x ∈ l, x = 0) → l.sum = 0
  | [], _ => rfl
  | a :: l, h => by rw [List.sum_cons, h a (by simp), sum_zero' (fun x hx => h x (by simp [hx]))]

theorem find_of_sumSeq {m : NMap Nat} (hm : m.Sorted) (h : sumSeq m ≠ 0) : ∃ p x, m.find p = some x ∧ x ≠ 0 := by
  by_contra hc
  apply h
  unfold sumSeq
  apply sum_zero'
  intro x hx
  obtain ⟨⟨p, y⟩, hy, rfl⟩ := List.mem_map.mp hx
  by_contra h0
  exact hc ⟨p, y, NMap.find_of_mem hm hy, h0⟩

theorem sumSeq_pos {m : NMap Nat} {p : Name} {x : Nat} (h : m.find p = some x) (hx : x ≠ 0) : sumSeq m ≠ 0 := by
  intro h0
  unfold sumSeq at h0
  exact hx (sum_zero h0 x (List.mem_map.mpr ⟨_, NMap.mem_of_find h, rfl⟩))

end Base

namespace Full

theorem syncName_total {cfg : Cfg} (hl : cfg.ibltCodec.Lossless) (b : Base) : ∃ n, syncName cfg b = .ok n := by
  unfold Full.syncName Table.toComponent
  obtain ⟨y, h1, _⟩ := hl b.iblt.encode
  rw [h1]
  exact ⟨_, rfl⟩

theorem sendSyncInterest_total {cfg : Cfg} (hl : cfg.ibltCodec.Lossless) (s : Full) :
    ∃ s', sendSyncInterest cfg s = .ok s' := by
  unfold sendSyncInterest
  split
  · exact ⟨_, rfl⟩
  · obtain ⟨n, hn⟩ := syncName_total hl s.stopFetcher.base
    simp only [hn, Res.ok_bind]
    split <;> exact ⟨_, rfl⟩

theorem publish_total {cfg : Cfg} {s : Full} {name : Name} (hn : name ≠ []) (buf : Bytes) (fr : Nat) :
    ∃ s', publish cfg s name buf fr = .ok s' := by
  unfold publish SegPub.publish
  rw [getFromEnd_one hn]
  generalize name.getLast hn = c
  simp only [Res.ok_bind]
  by_cases hs : Component.isSegment c = true
  · have : ∃ q, Component.toNumber c = .ok q := by
      unfold Component.isSegment at hs
      simp only [Bool.and_eq_true] at hs
      obtain ⟨q, hq⟩ := Option.isSome_iff_exists.mp hs.2
      exact ⟨q, by unfold Component.toNumber; rw [hq]; rfl⟩
    obtain ⟨q, hq⟩ := this
    simp only [hs, if_true, hq, Res.ok_bind]
    exact ⟨_, rfl⟩
  · simp only [hs, Bool.false_eq_true, if_false, Res.ok_bind]
    exact ⟨_, rfl⟩

theorem sendSyncData_total {cfg : Cfg} (hwf : cfg.WF) {s : Full} {name : Name} (hn : name ≠ []) (content : Bytes) (fr : Nat) :
    ∃ s', sendSyncData cfg s name content fr = .ok s' := by
  obtain ⟨y, hy, _⟩ := hwf.content_lossless content
  unfold sendSyncData
  simp only [hy, Res.ofOption, Res.ok_bind]
  obtain ⟨s1, h1⟩ := publish_total (cfg := cfg) (s := if (decide (s.outstanding = name) && s.fetcher.isSome) = true then
      { s.stopFetcher with outstanding := [] } else s) hn y fr
  rw [h1, Res.ok_bind]
  split
  · exact sendSyncInterest_total hwf.iblt_lossless s1
  · exact ⟨_, rfl⟩

theorem onUndecodable_total {cfg : Cfg} (hwf : cfg.WF) {s : Full} {i : Interest} {t : Bool} {n : Nat} {d : IBLTDiff}
    (hn : i.name ≠ []) : ∃ s', onUndecodable cfg s i t n d = .ok s' := by
  unfold onUndecodable
  split
  · generalize waitOrGiveUp cfg s i t = x
    obtain ⟨x, b⟩ := x
    cases b
    · exact ⟨_, rfl⟩
    · exact sendSyncInterest_total hwf.iblt_lossless _
  · split
    · exact ⟨_, rfl⟩
    · simp only
      split
      · exact ⟨_, rfl⟩
      · obtain ⟨s', h⟩ := sendSyncData_total hwf (s := s) hn (encodeNames (allContent s.base)) 10
        rw [h]
        exact ⟨_, rfl⟩

theorem onDecoded_total {cfg : Cfg} (hwf : cfg.WF) {s : Full} {i : Interest} {t : Bool} {ib : Table} {d : IBLTDiff}
    (hn : i.name ≠ []) : ∃ s', onDecoded cfg s i t ib d = .ok s' := by
  unfold onDecoded
  split
  · exact ⟨_, rfl⟩
  · split
    · exact ⟨_, rfl⟩
    · generalize collect d.negative s.base d.positive [] = x
      obtain ⟨content, b⟩ := x
      simp only
      split
      · exact ⟨_, rfl⟩
      · obtain ⟨s', h⟩ := sendSyncData_total hwf (s := { s with base := b }) hn (encodeNames content) cfg.freshness
        rw [h]
        exact ⟨_, rfl⟩

end Full
end PSync
