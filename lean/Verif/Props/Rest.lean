import Verif.Props.Group
/-!
C118: a group that agrees stays at rest.
-/
namespace PSync
open Spec

section
variable {ι : Type} {cfg : ι → Cfg} {g : Nat → ι → Full} {who : Nat → ι} {what : Nat → Full.Op} {len : Nat}

/-- All nodes have the same prefixes and numbers. -/
def Spec.Agree (g : ι → Full) : Prop := ∀ i j p, (g i).base.getSeqNo p = (g j).base.getSeqNo p

/-- Between two states a node has changed no number and has not called the update callback. -/
def Spec.AtRest (s s' : Full) : Prop := (∀ p, numberOf s' p = numberOf s p) ∧ ∀ us, Out.update us ∉ newOutput s s'

/-- If everything in `K` is known, it stays known, and an update callback reports something that is not in `K`. -/
theorem Micro.rest {K : Name → Nat → Prop} {ρ : Rules} {v v' : View} (h : Micro ρ v v') (hrem : ∀ p, ¬ ρ.remove p)
    (hv : ∀ p q, K p q → ∃ x, v.base.prefixes.find p = some x ∧ q ≤ x) :
    (∀ p q, K p q → ∃ x, v'.base.prefixes.find p = some x ∧ q ≤ x) ∧
    ∃ ext, v'.log = v.log ++ ext ∧ ∀ us, Out.update us ∈ ext → ∃ u ∈ us, ¬ K u.pfx u.highSeq := by
  have keep : ∀ p q, K p q → ∃ x, v'.base.prefixes.find p = some x ∧ q ≤ x := by
    intro p q hk
    obtain ⟨x, h1, h2⟩ := hv p q hk
    obtain ⟨y, h3, h4⟩ := h.steps.mono_seq (hrem _) h1
    exact ⟨y, h3, by omega⟩
  refine ⟨keep, ?_⟩
  have none : ∀ {w : View}, w.log = v.log → ∃ ext, w.log = v.log ++ ext ∧ ∀ us, Out.update us ∈ ext → ∃ u ∈ us, ¬ K u.pfx u.highSeq :=
    fun hw => ⟨[], by rw [hw, List.append_nil], fun us hu => by cases hu⟩
  cases h with
  | merge us b' hm hne hr =>
    refine ⟨_, rfl, ?_⟩
    intro us' hu
    cases List.mem_singleton.mp hu
    cases hr with
    | nil => exact absurd rfl hne
    | newer p q face hq hnew _ _ =>
      refine ⟨_, List.mem_cons_self .., ?_⟩
      intro hk
      obtain ⟨x, h1, h2⟩ := hv _ _ hk
      have h2 : q ≤ x := h2
      unfold Full.isNewer at hnew
      rw [h1] at hnew
      simp only [decide_eq_true_eq] at hnew
      omega
  | interest n lt _ => exact ⟨_, rfl, fun us hu => by simp at hu⟩
  | stored n d _ => exact ⟨_, rfl, fun us hu => by simp at hu⟩
  | nack d _ => exact ⟨_, rfl, fun us hu => by simp at hu⟩
  | data now iname dname buf fr r _ _ _ => exact ⟨_, rfl, fun us hu => by simp at hu⟩
  | _ => exact none rfl

theorem Micros.rest {K : Name → Nat → Prop} {ρ : Rules} {v v' : View} (h : Micros ρ v v') (hrem : ∀ p, ¬ ρ.remove p)
    (hv : ∀ p q, K p q → ∃ x, v.base.prefixes.find p = some x ∧ q ≤ x) :
    (∀ p q, K p q → ∃ x, v'.base.prefixes.find p = some x ∧ q ≤ x) ∧
    ∃ ext, v'.log = v.log ++ ext ∧ ∀ us, Out.update us ∈ ext → ∃ u ∈ us, ¬ K u.pfx u.highSeq := by
  induction h with
  | refl => exact ⟨hv, [], by simp, fun us hu => by cases hu⟩
  | tail _ h ih =>
    obtain ⟨h1, e, h2, h3⟩ := ih
    obtain ⟨h4, e', h5, h6⟩ := h.rest hrem h1
    refine ⟨h4, e ++ e', by rw [h5, h2, List.append_assoc], ?_⟩
    intro us hu
    rcases List.mem_append.mp hu with hu | hu
    · exact h3 us hu
    · exact h6 us hu

/-- C118, partial: once all nodes of a group have the same number for every prefix and nobody publishes, no number changes and no update
callback is called, however late, often and out of order Interests and packets arrive, as long as no prefix is removed.  Hashes may collide.
(Missing: removed prefixes, for which the claim is false, `c118_false`; two replies with the same version, see C56.) -/
theorem c118_rest_partial (hg : IsGroup cfg) (h : GRun cfg g who what len) (hs : Sane cfg (g len))
    (hrem : ∀ k < len, ∀ p, ¬ (what k).Removes p) (t : Nat) (hstop : ∀ k, t ≤ k → k < len → ∀ p, ¬ (what k).Publishes p)
    (ha : Agree (g t)) (n : Nat) (htn : t ≤ n) (hn : n ≤ len) (i : ι) : AtRest (g t i) (g n i) := by
  have htl : t ≤ len := by omega
  have hinv := c56_no_invention_partial hg h hs n hn i
  have known : ∀ p q, PublishedBy (g n) p q → ∃ x, (g t i).view.base.prefixes.find p = some x ∧ q ≤ x := by
    rintro p q ⟨k, hk⟩
    have hk' : (p, q) ∈ (g t k).made := by
      have := (h.span htn hn k).noPublish (by rintro p q ⟨k', h1, h2, h3⟩; exact hstop k' h1 (by omega) p h3)
      simp only [Full.view] at this
      rw [← this]; exact hk
    obtain ⟨x, h1, h2⟩ := (h.span (Nat.zero_le t) htl k).ownMade (by rintro p ⟨k', _, h2, h3⟩; exact hrem k' (by omega) p h3)
      (by
        have h1 : (g 0 k).made = [] := Full.init_made (h.init k)
        show ∀ e ∈ (g 0 k).made, _
        rw [h1]
        simp) (p, q) hk'
    refine ⟨x, ?_, h2⟩
    exact (ha i k p).trans h1
  obtain ⟨_, ext, h2, h3⟩ := (h.span htn hn i).rest (by rintro p ⟨k', _, h2, h3⟩; exact hrem k' (by omega) p h3) known
  have h2 : (g n i).log = (g t i).log ++ ext := h2
  constructor
  · intro p
    have low : numberOf (g t i) p ≤ numberOf (g n i) p := by
      unfold numberOf
      cases hj : (g t i).base.getSeqNo p with
      | none => simp
      | some x =>
        by_cases hx : x = 0
        · simp [hx]
        · obtain ⟨y, hy, hle⟩ := h.covers hrem htn hn i p x hj hx
          rw [hy]; simpa using hle
    by_cases h0 : numberOf (g n i) p = 0
    · omega
    · cases hi : (g n i).base.getSeqNo p with
      | none => simp [numberOf, hi] at h0
      | some x =>
        have hx : x ≠ 0 := by simpa [numberOf, hi] using h0
        obtain ⟨y, hy, hle⟩ := known p x (hinv.1 p x hi hx)
        have hy' : (g t i).base.getSeqNo p = some y := hy
        simp only [numberOf, hi, hy', Option.getD_some] at low ⊢
        omega
  · intro us hu
    unfold newOutput at hu
    rw [h2, List.drop_left] at hu
    obtain ⟨u, hm, hk⟩ := h3 us hu
    exact hk (hinv.2 us (by rw [h2]; exact List.mem_append_right _ hu) u hm)

end

/-- The full claim C118, with removals. -/
def Spec.AgreementLasts : Prop :=
  ∀ (k : Nat) (cfg : Fin k → Cfg) (g : Nat → Fin k → Full) (who : Nat → Fin k) (what : Nat → Full.Op) (len : Nat),
    IsGroup cfg → GRun cfg g who what len → Sane cfg (g len) → ∀ t ≤ len,
    (∀ k, t ≤ k → k < len → ∀ p, ¬ (what k).Publishes p ∧ ¬ (what k).Removes p) → Agree (g t) → ∀ i, AtRest (g t i) (g len i)

/-! ### A stale reply revives a removed prefix -/

/-- Node 0 publishes /a/1, answers the Interest of node 1, and removes /a; only then does the answer reach node 1. -/
def reviveEvents : List (GEv 2) :=
  [{ who := 0, what := .call (.addUserNode pA) }, { who := 0, what := .call (.publishName pA (some 1)) },
   { who := 0, what := .recvInterest emptyInterest }, { who := 0, what := .call (.removeUserNode pA) },
   { who := 1, what := .complete duoReply0.content [], name := emptyInterest.name,
     base := emptyInterest.name ++ [⟨54, [1]⟩], segs := [duoReply0] }]

theorem revive_run : (grun duoCfg reviveEvents).map (fun sts =>
    decide ((gat duoCfg sts 5 0).made = [(pA, 1)]) && decide ((gat duoCfg sts 5 1).made = []) &&
    decide ((gat duoCfg sts 5 0).replies = [(emptyInterest.name, duoReply0.content, 1000)]) &&
    decide ((gat duoCfg sts 5 1).replies = []) &&
    decide ((gat duoCfg sts 4 0).base.prefixes = []) && decide ((gat duoCfg sts 4 1).base.prefixes = []) &&
    decide (numberOf (gat duoCfg sts 5 1) pA = 1)) = some true := by decide +kernel

/-- C118 is false as stated: a reply on its way brings back a prefix that has been removed everywhere. -/
theorem c118_false : ¬ Spec.AgreementLasts := by
  intro hclaim
  obtain ⟨sts, h1, h2⟩ := Option.of_map revive_run
  simp only [Bool.and_eq_true, decide_eq_true_eq] at h2
  obtain ⟨⟨⟨⟨⟨⟨m0, m1⟩, r0⟩, r1⟩, a0⟩, a1⟩, n1⟩ := h2
  have hrun := grun_sound h1 0
  have hsane : Sane duoCfg (gat duoCfg sts 5) := by
    refine sane_duo ?_ ?_ ?_ ?_ (by rw [r0]; decide) (by rw [r1]; decide)
    · rw [m0]; intro e he; rw [List.mem_singleton.mp he]; exact nameOf_valid (by decide)
    · rw [m1]; intro e he; cases he
    · rw [r0]; intro e he; rw [List.mem_singleton.mp he]; decide
    · rw [r1]; intro e he; cases he
  have hat := hclaim 2 duoCfg (gat duoCfg sts) _ _ _ duoCfg_group hrun hsane 4 (by decide)
    (fun k h4 hk p => by
      have : k = 4 := by simp [reviveEvents] at hk; omega
      subst this
      constructor <;> simp [gwhat, reviveEvents, Full.Op.Publishes, Full.Op.Removes])
    (by
      have e : ∀ i : Fin 2, (gat duoCfg sts 4 i).base.prefixes = [] := fin2_forall.mpr ⟨a0, a1⟩
      intro i j p
      unfold Base.getSeqNo
      rw [e i, e j]) 1
  have := hat.1 pA
  rw [show reviveEvents.length = 5 from rfl, n1] at this
  unfold numberOf Base.getSeqNo at this
  rw [a1] at this
  exact absurd this (by decide)

/-- Non-vacuity for C118: after the events of `duoEvents` the two nodes agree on /a/1 and /b/3; then the first reply arrives once more, the
nodes ask and are asked, and nothing changes. -/
def restEvents : List (GEv 2) := duoEvents ++
  [{ who := 0, what := .tick 100 }, { who := 0, what := .fireSync }, { who := 1, what := .tick 600 }, { who := 1, what := .fireSync },
   { who := 1, what := .complete duoReply0.content [], name := emptyInterest.name, base := emptyInterest.name ++ [⟨54, [1]⟩], segs := [duoReply0] },
   { who := 0, what := .recvInterest emptyInterest }]

example : (grun duoCfg restEvents).map (fun sts =>
    (decide ((gat duoCfg sts 8 0).base.prefixes = (gat duoCfg sts 8 1).base.prefixes),
     decide ((gat duoCfg sts 14 1).base.prefixes = [(pA, 1), (pB, 3)]),
     (newOutput (gat duoCfg sts 8 0) (gat duoCfg sts 14 0)).length, (newOutput (gat duoCfg sts 8 1) (gat duoCfg sts 14 1)).length,
     decide ((gat duoCfg sts 12 1).fetcher.any (·.active)), decide ((gat duoCfg sts 13 1).waitOut = true))) = some (true, true, 2, 1, true, true) := by
  decide +kernel


end PSync
