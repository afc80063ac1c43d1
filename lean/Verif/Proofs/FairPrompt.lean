import Verif.Proofs.FairAny
import Verif.Props.Pace
/-!
If packets take a bounded time, every node polls all others once in a bounded time.
-/
namespace PSync
open Spec Base

section
variable {ι : Type} {cfg : ι → Cfg} {g : Nat → ι → Full} {who : Nat → ι} {what : Nat → Full.Op} {len : Nat}

theorem Spec.GRun.localRun (h : GRun cfg g who what len) {m n : Nat} (hmn : m ≤ n) (hn : n ≤ len) (i : ι) :
    ∃ ops, Full.run (cfg i) (g m i) ops = .ok (g n i) := by
  induction n, hmn using Nat.le_induction with
  | base => exact ⟨[], rfl⟩
  | succ n hmn ih =>
    obtain ⟨ops, ho⟩ := ih (by omega)
    have hs := h.step n (by omega)
    by_cases hi : i = who n
    · subst hi
      refine ⟨ops ++ [what n], ?_⟩
      unfold Full.run at ho ⊢
      rw [foldRes_append, ho, Res.ok_bind]
      simp [foldRes, hs.step]
    · exact ⟨ops, by rw [hs.others i hi]; exact ho⟩

/-- What is put out in a stretch is put out in one of its events. -/
theorem Spec.GRun.outAt (h : GRun cfg g who what len) {m n : Nat} (hmn : m ≤ n) (hn : n ≤ len) {i : ι} {o : Out}
    (ho : o ∈ newOutput (g m i) (g n i)) : ∃ k, m ≤ k ∧ k < n ∧ o ∈ newOutput (g k i) (g (k + 1) i) := by
  induction n, hmn using Nat.le_induction with
  | base => simp [newOutput] at ho
  | succ n hmn ih =>
    obtain ⟨e1, h1⟩ := h.log hmn (by omega) i
    obtain ⟨e2, h2⟩ := h.log (Nat.le_succ n) hn i
    have x1 : newOutput (g m i) (g n i) = e1 := by unfold newOutput; rw [← h1, List.drop_left]
    have x2 : newOutput (g n i) (g (n + 1) i) = e2 := by unfold newOutput; rw [← h2, List.drop_left]
    have x3 : newOutput (g m i) (g (n + 1) i) = e1 ++ e2 := by
      unfold newOutput; rw [← h2, ← h1, List.append_assoc, List.drop_left]
    rw [x3, List.mem_append] at ho
    rcases ho with ho | ho
    · obtain ⟨k, h3, h4, h5⟩ := ih (by omega) (by rw [x1]; exact ho)
      exact ⟨k, h3, by omega, h5⟩
    · exact ⟨n, hmn, by omega, by rw [x2]; exact ho⟩

/-- A node sends a sync Interest within `W` ms. -/
theorem Spec.GRun.asksWithin (hg : IsGroup cfg) (h : GRun cfg g who what len) {W : Nat}
    (hW : ∀ i, (cfg i).lifetime / 2 + (cfg i).freshness + 1000 + 2 * (cfg i).lag ≤ W) {m n : Nat} (hn : n ≤ len)
    {i : ι} (ht : (g m i).now + W < (g n i).now) (hmn : m ≤ n) :
    ∃ k nm lt, m ≤ k ∧ k < n ∧ Out.interest nm lt ∈ newOutput (g k i) (g (k + 1) i) ∧ (g k i).now ≤ (g m i).now + W := by
  classical
  have hex : ∃ x, m ≤ x ∧ (g m i).now + W < (g x i).now := ⟨n, hmn, ht⟩
  have hspec := Nat.find_spec hex
  have hle : Nat.find hex ≤ n := Nat.find_min' hex ⟨hmn, ht⟩
  have hbelow : ∀ x, m ≤ x → x < Nat.find hex → (g x i).now ≤ (g m i).now + W := by
    intro x hx hlt
    have := Nat.find_min hex hlt
    simp only [not_and, Nat.not_lt] at this
    exact this hx
  generalize Nat.find hex = x at hspec hle hbelow
  obtain ⟨ops, hrun⟩ := h.localRun hspec.1 (by omega) i
  obtain ⟨nm, lt, ho⟩ := c69_pace (cfg i) (hg.wf i) _ _ (h.reach (by omega) i) ops hrun (by have := hW i; omega)
  obtain ⟨k, h1, h2, h3⟩ := h.outAt hspec.1 (by omega) ho
  exact ⟨k, nm, lt, h1, by omega, h3, hbelow k h1 h2⟩

/-- While only clocks move, they do not move by more than `W` ms. -/
theorem Spec.GRun.ticksOnly (hg : IsGroup cfg) (h : GRun cfg g who what len) {W : Nat}
    (hW : ∀ i, (cfg i).lifetime / 2 + (cfg i).freshness + 1000 + 2 * (cfg i).lag ≤ W) {m n : Nat} (hmn : m ≤ n) (hn : n ≤ len)
    (htick : ∀ k, m ≤ k → k < n → ∃ t, what k = .tick t) (i : ι) : (g n i).now ≤ (g m i).now + W := by
  by_contra hcon
  obtain ⟨k, nm, lt, h1, h2, h3, _⟩ := h.asksWithin hg hW hn (i := i) (m := m) (by omega) hmn
  obtain ⟨t, ht⟩ := htick k h1 h2
  have hs := h.step k (by omega)
  have : (g (k + 1) i).log = (g k i).log := by
    by_cases hi : i = who k
    · subst hi
      have hst := hs.step
      rw [ht] at hst
      simp only [Full.step, Res.ok.injEq] at hst
      rw [← hst]
      split <;> rfl
    · rw [hs.others i hi]
  unfold newOutput at h3
  rw [this] at h3
  simp at h3

/-- Within `2 * W + Δ + δ` ms every node polls all others. -/
theorem Spec.GRun.pollsWithin (hg : IsGroup cfg) (h : GRun cfg g who what len) {W Δ δ t : Nat}
    (hW : ∀ i, (cfg i).lifetime / 2 + (cfg i).freshness + 1000 + 2 * (cfg i).lag ≤ W)
    (hclock : ∀ n < len, (∀ t, what n ≠ .tick t) → ∀ i j, (g n i).now ≤ (g n j).now + δ) (hprompt : Prompt Δ g who what t len)
    {m X : Nat} (htm : t ≤ m) (hm : m ≤ len) (hX : ∀ i, (g m i).now ≤ X) (hlong : ∀ i, X + (2 * W + Δ + δ) < (g len i).now) :
    ∃ n, m ≤ n ∧ n ≤ len ∧ (∀ i, Polls g who what i m n) ∧ ∀ i, (g n i).now ≤ X + (2 * W + Δ + δ) := by
  classical
  have hex : ∃ x, m ≤ x ∧ ∀ i, X + W + Δ < (g x i).now := ⟨len, hm, fun i => by have := hlong i; omega⟩
  have hspec := Nat.find_spec hex
  have hle : Nat.find hex ≤ len := Nat.find_min' hex ⟨hm, fun i => by have := hlong i; omega⟩
  have hbelow : ∀ x, m ≤ x → x < Nat.find hex → ∃ i, (g x i).now ≤ X + W + Δ := by
    intro x hx hlt
    have := Nat.find_min hex hlt
    simp only [not_and, not_forall, Nat.not_lt] at this
    exact this hx
  generalize Nat.find hex = n at hspec hle hbelow
  refine ⟨n, hspec.1, hle, fun i => ?_, fun i => ?_⟩
  · have h1 := hX i
    have h2 := hspec.2 i
    obtain ⟨k, nm, lt, hmk, hkn, hint, hkt⟩ := h.asksWithin hg hW hle (i := i) (m := m) (by omega) hspec.1
    obtain ⟨a, int, hdel, hfetch⟩ := hprompt k i nm lt (by omega) (by omega) hint (fun j => by
      have := hlong j; omega)
    have before : ∀ (b : Nat) (j : ι), b < len → (g b j).now ≤ (g k i).now + Δ → b < n := by
      intro b j hb hbt
      by_contra hcon
      have h3 := h.time (m := n) (n := b) (by omega) (by omega) j
      have h4 := hspec.2 j
      omega
    refine ⟨k, nm, lt, a, int, hmk, hkn, hint, fun j hj => ?_, fun hany => ?_⟩
    · obtain ⟨d1, d2, d3, d4, d5, d6⟩ := hdel j hj
      exact ⟨d1, before _ _ d2 d6, d3, d4, d5⟩
    · obtain ⟨j, d, b, e1, e2, e3, e4, e5, e6⟩ := hfetch hany
      exact ⟨j, d, b, e1, e2, e3, before _ _ e4 e6, e5⟩
  · -- the last event that is not a clock tick
    by_cases hq : ∃ q, m ≤ q ∧ q < n ∧ ∀ t, what q ≠ .tick t
    · obtain ⟨q, ⟨hmq, hqn, hqt⟩, hmax⟩ : ∃ q, (m ≤ q ∧ q < n ∧ ∀ t, what q ≠ .tick t) ∧
          ∀ q', q < q' → q' < n → ∃ t, what q' = .tick t := by
        obtain ⟨q, hq1, hq2, hq3⟩ := hq
        have hex' : ∃ y, y < n ∧ m ≤ n - 1 - y ∧ ∀ t, what (n - 1 - y) ≠ .tick t :=
          ⟨n - 1 - q, by omega, by rw [show n - 1 - (n - 1 - q) = q by omega]; exact ⟨hq1, hq3⟩⟩
        have hs' := Nat.find_spec hex'
        have hm' := fun y => Nat.find_min (m := y) hex'
        generalize Nat.find hex' = y at hs' hm'
        refine ⟨n - 1 - y, ⟨hs'.2.1, by omega, hs'.2.2⟩, fun q' h1 h2 => ?_⟩
        by_contra hcon
        simp only [not_exists] at hcon
        refine hm' (n - 1 - q') (by omega) ⟨by omega, ?_⟩
        rw [show n - 1 - (n - 1 - q') = q' by omega]
        exact ⟨by omega, hcon⟩
      obtain ⟨j0, hj0⟩ := hbelow q hmq hqn
      have h1 := hclock q (by omega) hqt i j0
      have h2 : (g (q + 1) i).now = (g q i).now := by
        have hs := h.step q (by omega)
        by_cases hi : i = who q
        · subst hi
          exact (Full.step_clocked (Full.reach_clocked (h.reach (by omega) _)) hs.step).2.2 hqt
        · rw [hs.others i hi]
      have h3 := h.ticksOnly hg hW (m := q + 1) (n := n) (by omega) hle (fun k h1 h2 => hmax k (by omega) h2) i
      omega
    · simp only [not_exists, not_and, not_forall, not_not] at hq
      have h3 := h.ticksOnly hg hW hspec.1 hle (fun k h1 h2 => hq k h1 h2) i
      have := hX i
      omega

/-- In `n` times that time, there are `n` rounds. -/
theorem Spec.GRun.roundsWithin (hg : IsGroup cfg) (h : GRun cfg g who what len) {W Δ δ t : Nat}
    (hW : ∀ i, (cfg i).lifetime / 2 + (cfg i).freshness + 1000 + 2 * (cfg i).lag ≤ W)
    (hclock : ∀ n < len, (∀ t, what n ≠ .tick t) → ∀ i j, (g n i).now ≤ (g n j).now + δ) (hprompt : Prompt Δ g who what t len)
    (ht : t ≤ len) {X : Nat} (hX : ∀ i, (g t i).now ≤ X) (rounds : Nat) (hlong : ∀ i, X + rounds * (2 * W + Δ + δ) < (g len i).now) :
    ∃ r : Nat → Nat, r 0 = t ∧ (∀ k < rounds, r k ≤ r (k + 1) ∧ ∀ i, Polls g who what i (r k) (r (k + 1))) ∧ r rounds ≤ len ∧
      t ≤ r rounds ∧ ∀ i, (g (r rounds) i).now ≤ X + rounds * (2 * W + Δ + δ) := by
  induction rounds with
  | zero => exact ⟨fun _ => t, rfl, by simp, ht, le_refl _, by simpa using hX⟩
  | succ n ih =>
    have hmul : (n + 1) * (2 * W + Δ + δ) = n * (2 * W + Δ + δ) + (2 * W + Δ + δ) := Nat.succ_mul _ _
    rw [hmul] at hlong ⊢
    obtain ⟨r, r0, r1, r2, r3, r4⟩ := ih (fun i => by have := hlong i; omega)
    obtain ⟨e, h1, h2, h3, h4⟩ := h.pollsWithin hg hW hclock hprompt r3 r2 r4 (fun i => by have := hlong i; omega)
    refine ⟨fun k => if k ≤ n then r k else e, by simp [r0], fun k hk => ?_, by simpa using h2, by simp; omega, by
      simpa [Nat.add_assoc] using h4⟩
    by_cases hkn : k < n
    · simp only [if_pos (show k ≤ n by omega), if_pos (show k + 1 ≤ n by omega)]
      exact r1 k hkn
    · have : k = n := by omega
      subst this
      simp only [le_refl, if_true, if_neg (show ¬ k + 1 ≤ k by omega)]
      exact ⟨h1, h3⟩

end
end PSync
