import Verif.Proofs.Honest
import Verif.Spec.Compare
/-!
The content of a reply covers what the requester lacks.
-/
namespace PSync
open Spec

theorem BiMap.findLeft_of_mem {m : BiMap} (hn : (m.map Prod.fst).Nodup) {h : U32} {n : Name} (hm : (h, n) ∈ m) :
    m.findLeft h = some n := by
  cases hf : m.findLeft h with
  | none => exact absurd hm (BiMap.findLeft_none hf n)
  | some n' =>
    have hm' := BiMap.findLeft_some hf
    have := List.inj_on_of_nodup_map hn hm hm' rfl
    simp only [Prod.mk.injEq, true_and] at this
    rw [this]

namespace Base

theorem Exact.isHashList {e : Nat} {b : Base} (hb : b.Inv) (hx : b.Exact e) :
    IsHashList b.getSeqNo (b.biMap.map Prod.fst) := by
  refine ⟨hb.nodupL, ?_⟩
  intro k
  rw [List.mem_map]
  constructor
  · rintro ⟨⟨h, n⟩, hm, rfl⟩
    obtain ⟨h1, h2⟩ := hb.bm _ _ hm
    exact ⟨n, h2, h1.symm⟩
  · rintro ⟨n, ⟨p, s, hp, hs, rfl⟩, rfl⟩
    exact ⟨_, hx.all p s hp hs, rfl⟩

/-- The difference of the IBFs of two nodes, when it decodes. -/
theorem diff_live {e fuel : Nat} (he : 0 < e) {b b' : Base} (hb : b.Inv) (hb' : b'.Inv) (hx : b.Exact e)
    (hx' : b'.Exact e) (hc : NoCollisions e b.getSeqNo b'.getSeqNo) {d : IBLTDiff}
    (hd : Table.diff fuel b.iblt b'.iblt = .ok d) (hdec : d.canDecode = true) :
    (∀ n, IsLive b.getSeqNo n → (nameHash n ∈ d.positive ↔ ¬ IsLive b'.getSeqNo n)) ∧
    (∀ k ∈ d.positive, ∃ n, IsLive b.getSeqNo n ∧ ¬ IsLive b'.getSeqNo n ∧ nameHash n = k) ∧
    (∀ k ∈ d.negative, ∃ n, IsLive b'.getSeqNo n ∧ ¬ IsLive b.getSeqNo n ∧ nameHash n = k) := by
  have hA := hx.isHashList hb
  have hB := hx'.isHashList hb'
  obtain ⟨h1, h2, _, _⟩ := c03_diff_exact_partial e he _ _ _ _ fuel d hx.ibf hx'.ibf (hc.few _ _ hA hB)
    (hc.checks _ _ hA hB) hd hdec
  refine ⟨?_, ?_, ?_⟩
  · intro n hn
    rw [h1, hA.2, hB.2]
    constructor
    · rintro ⟨_, h⟩ hl
      exact h ⟨n, hl, rfl⟩
    · intro h
      refine ⟨⟨n, hn, rfl⟩, ?_⟩
      rintro ⟨n', hn', he⟩
      have := hc.names n' n (Or.inr (Or.inl hn')) (Or.inl hn) he
      exact h (this ▸ hn')
  · intro k hk
    obtain ⟨ha, hb⟩ := (h1 k).mp hk
    obtain ⟨n, hn, rfl⟩ := (hA.2 k).mp ha
    exact ⟨n, hn, fun h => hb ((hB.2 _).mpr ⟨n, h, rfl⟩), rfl⟩
  · intro k hk
    obtain ⟨ha, hb⟩ := (h2 k).mp hk
    obtain ⟨n, hn, rfl⟩ := (hB.2 k).mp ha
    exact ⟨n, hn, fun h => hb ((hA.2 _).mpr ⟨n, h, rfl⟩), rfl⟩

end Base

namespace Full

/-- A publication the requester lacks is in the reply. -/
theorem content_complete {e fuel : Nat} (he : 0 < e) {b b' : Base} (hb : b.Inv) (hb' : b'.Inv) (hx : b.Exact e)
    (hx' : b'.Exact e) (hc : NoCollisions e b.getSeqNo b'.getSeqNo) {d : IBLTDiff}
    (hd : Table.diff fuel b.iblt b'.iblt = .ok d) (hdec : d.canDecode = true) {content : List Name}
    (hcon : IsContentOf b d content) {p : Name} {x : Nat} (hp : b.getSeqNo p = some x) (hx0 : x ≠ 0) :
    (∃ y, b'.getSeqNo p = some y ∧ x ≤ y) ∨ Name.appendNumber p x ∈ content := by
  obtain ⟨h1, _, h3⟩ := Base.diff_live he hb hb' hx hx' hc hd hdec
  have hlive : IsLive b.getSeqNo (Name.appendNumber p x) := ⟨p, x, hp, hx0, rfl⟩
  have hxlt := hb.lt _ _ hp
  by_cases hl : IsLive b'.getSeqNo (Name.appendNumber p x)
  · left
    obtain ⟨p', x', hp', _, heq⟩ := hl
    obtain ⟨rfl, rfl⟩ := appendNumber_inj' hxlt (hb'.lt _ _ hp') heq
    exact ⟨x, hp', le_refl _⟩
  · by_cases hneg : nameHash (Name.appendNumber p ((x + 1) % U64)) ∈ d.negative
    · left
      obtain ⟨n, hn, _, hh⟩ := h3 _ hneg
      have hn' := hc.names n _ (Or.inr (Or.inl hn)) (Or.inr (Or.inr ⟨p, x, hp, hx0, rfl⟩)) hh
      subst hn'
      obtain ⟨p', x', hp', hx', heq⟩ := hn
      obtain ⟨rfl, h5⟩ := appendNumber_inj' (Nat.mod_lt _ (by decide)) (hb'.lt _ _ hp') heq
      refine ⟨x', hp', ?_⟩
      by_cases hlast : x + 1 < U64
      · rw [Nat.mod_eq_of_lt hlast] at h5; omega
      · have : x + 1 = U64 := by omega
        rw [this, Nat.mod_self] at h5
        exact absurd h5.symm hx'
    · right
      exact (hcon _).mpr ⟨_, (h1 _ hlive).mpr hl, p, x, BiMap.findLeft_of_mem hb.nodupL (hx.all p x hp hx0), hp, hx0,
        rfl, hneg⟩

/-- A node that processes announcements containing everything it lacks covers the announcer. -/
theorem covers_of_best {g g1 g2 : Name → Option Nat} {content : List Name} {ps : List (Name × Nat)}
    (hlt : ∀ p x, g p = some x → x < U64)
    (hmiss : ∀ p x, g p = some x → x ≠ 0 → (∃ y, g1 p = some y ∧ x ≤ y) ∨ Name.appendNumber p x ∈ content)
    (hps : content.map announced = ps.map some) (hg2 : ∀ p, g2 p = best p (g1 p) ps) : Covers g g2 := by
  intro p x hp hx0
  rw [hg2]
  cases hb : best p (g1 p) ps with
  | none =>
    obtain ⟨hn, hm⟩ := (best_none_iff p (g1 p) ps).mp hb
    rcases hmiss p x hp hx0 with ⟨y, hy, _⟩ | hmem
    · rw [hn] at hy; simp at hy
    · have : some (p, x) ∈ ps.map some := by
        rw [← hps, ← announced_appendNumber p x (hlt p x hp)]
        exact List.mem_map_of_mem hmem
      obtain ⟨e, he, heq⟩ := List.mem_map.mp this
      cases heq
      exact absurd he (hm x)
  | some z =>
    refine ⟨z, rfl, ?_⟩
    obtain ⟨_, h1, h2⟩ := (best_le_iff p (g1 p) ps z).mp ⟨z, hb, le_refl _⟩
    rcases hmiss p x hp hx0 with ⟨y, hy, hle⟩ | hmem
    · rw [hy] at h1; simp at h1; omega
    · have : some (p, x) ∈ ps.map some := by
        rw [← hps, ← announced_appendNumber p x (hlt p x hp)]
        exact List.mem_map_of_mem hmem
      obtain ⟨e, he, heq⟩ := List.mem_map.mp this
      cases heq
      exact h2 x he

end Full
end PSync
