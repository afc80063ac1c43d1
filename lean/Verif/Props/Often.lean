import Verif.Props.Own
/-!
C123: how often an update callback is called.
-/
namespace PSync
open Spec Base

/-- The calls of the update callback, in order. -/
def Spec.updateCalls (log : List Out) : List (List MissingDataInfo) :=
  log.filterMap (fun o => match o with
    | .update us => some us
    | _ => none)

/-- The prefixes and highest numbers that were reported, in order. -/
def Spec.toldPairs (log : List Out) : List (Name × Nat) := (updateCalls log).flatten.map (fun u => (u.pfx, u.highSeq))

theorem updateCalls_append (l l' : List Out) : updateCalls (l ++ l') = updateCalls l ++ updateCalls l' := List.filterMap_append ..

theorem toldPairs_append (l l' : List Out) : toldPairs (l ++ l') = toldPairs l ++ toldPairs l' := by
  unfold toldPairs
  rw [updateCalls_append, List.flatten_append, List.map_append]

theorem updateCalls_none {l : List Out} (h : ∀ us, Out.update us ∉ l) : updateCalls l = [] := by
  unfold updateCalls
  rw [List.filterMap_eq_nil_iff]
  intro o ho
  cases o with
  | update us => exact absurd ho (h us)
  | _ => rfl

/-- What is merged is in the table afterwards. -/
theorem MergeRel.known {b b' : Base} {us : List MissingDataInfo} (h : MergeRel b us b') :
    ∀ u ∈ us, ∃ x, b'.prefixes.find u.pfx = some x ∧ u.highSeq ≤ x := by
  induction h with
  | nil b => exact fun u hu => (by cases hu)
  | newer p q face hq hnew h1 hrest ih =>
    intro u hu
    rcases List.mem_cons.mp hu with rfl | hu
    · have hf := Full.merge_step_find h1 p
      rw [if_pos rfl] at hf
      obtain ⟨y, h2, h3⟩ := (hrest.steps (R := fun _ => False)).mono_seq (p := p) (fun h => h) hf
      exact ⟨y, h2, by simp only; omega⟩
    · exact ih u hu

/-- The numbers reported for a prefix increase and are not above the table; no call is empty. -/
structure ToldSoFar (v : View) : Prop where
  rising : (toldPairs v.log).Pairwise (fun a b => a.1 = b.1 → a.2 < b.2)
  known : ∀ e ∈ toldPairs v.log, ∃ x, v.base.prefixes.find e.1 = some x ∧ e.2 ≤ x
  some : ∀ us ∈ updateCalls v.log, us ≠ []

theorem Micro.told {ρ : Rules} {v v' : View} (h : Micro ρ v v') (hrem : ∀ p, ¬ ρ.remove p) (ht : ToldSoFar v) : ToldSoFar v' := by
  have keep : ∀ e ∈ toldPairs v.log, ∃ x, v'.base.prefixes.find e.1 = some x ∧ e.2 ≤ x := by
    intro e he
    obtain ⟨x, h1, h2⟩ := ht.known e he
    obtain ⟨y, h3, h4⟩ := h.steps.mono_seq (hrem e.1) h1
    exact ⟨y, h3, by omega⟩
  have quiet : ∀ l : List Out, (∀ us, Out.update us ∉ l) → v'.log = v.log ++ l → ToldSoFar v' := by
    intro l hl e
    have h1 : updateCalls v'.log = updateCalls v.log := by rw [e, updateCalls_append, updateCalls_none hl, List.append_nil]
    have h2 : toldPairs v'.log = toldPairs v.log := by unfold toldPairs; rw [h1]
    exact ⟨h2 ▸ ht.rising, h2 ▸ keep, h1 ▸ ht.some⟩
  cases h with
  | merge us b' hm hne hmr =>
    have e1 : toldPairs [Out.update us] = us.map (fun u => (u.pfx, u.highSeq)) := by simp [toldPairs, updateCalls]
    refine ⟨?_, ?_, ?_⟩
    · simp only [toldPairs_append, e1]
      rw [List.pairwise_append]
      refine ⟨ht.rising, List.pairwise_map.mpr hmr.rising.2, fun a ha b hb e => ?_⟩
      obtain ⟨u, hu, rfl⟩ := List.mem_map.mp hb
      obtain ⟨x, h1, h2⟩ := ht.known a ha
      have := hmr.rising.1 u hu x (by rw [← h1, e])
      simp only
      omega
    · intro e he
      simp only [toldPairs_append, e1] at he
      rcases List.mem_append.mp he with he | he
      · exact keep e he
      · obtain ⟨u, hu, rfl⟩ := List.mem_map.mp he
        exact hmr.known u hu
    · intro us' hus
      simp only [updateCalls_append] at hus
      rcases List.mem_append.mp hus with hus | hus
      · exact ht.some us' hus
      · simp only [updateCalls, List.filterMap_cons, List.filterMap_nil, List.mem_singleton] at hus
        exact hus ▸ hne
  | interest n lt _ => exact quiet _ (by simp) rfl
  | stored n d _ => exact quiet _ (by simp) rfl
  | nack d _ => exact quiet _ (by simp) rfl
  | data now iname dname buf fr r _ _ _ => exact quiet _ (by simp) rfl
  | _ => exact quiet [] (by simp) (by simp)

theorem Micros.told {ρ : Rules} {v v' : View} (h : Micros ρ v v') (hrem : ∀ p, ¬ ρ.remove p) (ht : ToldSoFar v) : ToldSoFar v' := by
  induction h with
  | refl => exact ht
  | tail _ h ih => exact h.told hrem ih

theorem told_empty {b : Base} {pub : SegPub} {t : Nat} : ToldSoFar ⟨b, pub, [], [], [], t⟩ :=
  ⟨by simp [toldPairs, updateCalls], by simp [toldPairs, updateCalls], by simp [updateCalls]⟩

/-- C123 for one node that removes nothing, whatever it receives: the highest numbers that the update callback is given for a prefix increase
from entry to entry, and the callback is never called with an empty list. -/
theorem c123_rising (cfg : Cfg) (s0 s : Full) (ops : List Full.Op) (h0 : Full.init cfg = .ok s0) (h : Full.run cfg s0 ops = .ok s)
    (hrem : ∀ op ∈ ops, ∀ p, ¬ op.Removes p) :
    (toldPairs s.log).Pairwise (fun a b => a.1 = b.1 → a.2 < b.2) ∧ ∀ us ∈ updateCalls s.log, us ≠ [] := by
  have hr : ∀ p, ¬ (Full.runRules cfg ops).remove p := fun p ⟨op, ho, hx⟩ => hrem op ho p hx
  have := (Full.run_micro (Full.reach_inv ⟨s0, [], h0, rfl⟩) h).told hr ((Full.init_micro h0 ops).told hr told_empty)
  exact ⟨this.rising, this.some⟩

section
variable {ι : Type} {cfg : ι → Cfg} {g : Nat → ι → Full} {who : Nat → ι} {what : Nat → Full.Op} {len : Nat}

theorem Spec.GRun.told (h : GRun cfg g who what len) {i : ι} (hrem : ∀ k < len, who k = i → ∀ p, ¬ (what k).Removes p) :
    ∀ n ≤ len, ToldSoFar (g n i).view := by
  intro n
  induction n with
  | zero => intro _; exact (Full.init_micro (h.init i) []).told (fun p ⟨op, ho, _⟩ => by cases ho) told_empty
  | succ n ih =>
    intro hn
    have hst := h.step n (by omega)
    by_cases hi : i = who n
    · have hx := hst.step
      rw [← hi] at hx
      exact (Full.step_micro (Full.reach_inv (h.reach (n := n) (by omega) i)) hx).told (hrem n (by omega) hi.symm) (ih (by omega))
    · rw [hst.others i hi]
      exact ih (by omega)

end

theorem length_le_flatten {α : Type} : ∀ (l : List (List α)), (∀ x ∈ l, x ≠ []) → l.length ≤ l.flatten.length
  | [], _ => by simp
  | x :: l, h => by
    have h1 := length_le_flatten l (fun y hy => h y (List.mem_cons_of_mem _ hy))
    have h2 := List.length_pos_iff.mpr (h x List.mem_cons_self)
    rw [List.flatten_cons, List.length_append, List.length_cons]
    omega

/-- C123 in a group: the update callback of a node that removes nothing is called at most as often as the other nodes have published, and it
is given at most as many entries in all these calls together. -/
theorem c123_bound {k : Nat} {cfg : Fin k → Cfg} {g : Nat → Fin k → Full} {who : Nat → Fin k} {what : Nat → Full.Op} {len : Nat}
    (hg : IsGroup cfg) (h : GRun cfg g who what len) (hs : Sane cfg (g len)) (i : Fin k)
    (hrem : ∀ n < len, who n = i → ∀ p, ¬ (what n).Removes p) :
    (updateCalls (g len i).log).length ≤ (toldPairs (g len i).log).length ∧
    (toldPairs (g len i).log).length ≤ (((List.finRange k).filter (fun j => j ≠ i)).map (fun j => (g len j).made.length)).sum := by
  have ht := h.told hrem len (le_refl _)
  refine ⟨?_, ?_⟩
  · unfold toldPairs
    rw [List.length_map]
    exact length_le_flatten _ ht.some
  · have hnd : (toldPairs (g len i).log).Nodup :=
      List.Pairwise.imp (fun {a b} (hab : a.1 = b.1 → a.2 < b.2) e => by subst e; exact absurd (hab rfl) (lt_irrefl _)) ht.rising
    have hsub : toldPairs (g len i).log ⊆ ((List.finRange k).filter (fun j => j ≠ i)).flatMap (fun j => (g len j).made) := by
      intro e he
      unfold toldPairs at he
      obtain ⟨u, hu, rfl⟩ := List.mem_map.mp he
      obtain ⟨us, hus, hm⟩ := List.mem_flatten.mp hu
      unfold updateCalls at hus
      obtain ⟨o, ho, hx⟩ := List.mem_filterMap.mp hus
      split at hx
      · cases hx
        obtain ⟨j, hne, hj⟩ := c122_by_others hg h hs i u.pfx (fun n hn hw => hrem n hn hw u.pfx) len (le_refl _) _ ho u hm rfl
        exact List.mem_flatMap.mpr ⟨j, List.mem_filter.mpr ⟨List.mem_finRange j, by simpa using hne⟩, hj⟩
      · cases hx
    have := (hnd.subperm hsub).length_le
    rwa [List.length_flatMap] at this

/-- Non-vacuity for C123: three replies, the second one without news. -/
example : (Res.bind (Full.init sampleCfg) fun s => Full.run sampleCfg s
      [.complete (encodeNames [pA.appendNumber 1]) [], .tick 101, .fireSync, .complete (encodeNames [pA.appendNumber 1]) [],
       .tick 1202, .fireSync, .complete (encodeNames [pA.appendNumber 3, pB.appendNumber 1]) []]).get?.map
        (fun s => (updateCalls s.log, toldPairs s.log)) =
    some ([[⟨pA, 1, 1, 0⟩], [⟨pA, 2, 3, 0⟩, ⟨pB, 1, 1, 0⟩]], [(pA, 1), (pA, 3), (pB, 1)]) := by decide +kernel

/-- C123 needs that nothing is removed: otherwise an old reply is reported once more. -/
example : (Res.bind (Full.init sampleCfg) fun s => Full.run sampleCfg s
      [.complete (encodeNames [pA.appendNumber 1]) [], .call (.removeUserNode pA), .tick 101, .fireSync,
       .complete (encodeNames [pA.appendNumber 1]) []]).get?.map (fun s => toldPairs s.log) = some [(pA, 1), (pA, 1)] := by decide +kernel

theorem duo_calls : (grun duoCfg duoEvents).map (fun sts =>
    decide ((gat duoCfg sts 8 0).made = [(pA, 1)]) && decide ((gat duoCfg sts 8 1).made = [(pB, 3)]) &&
    decide ((gat duoCfg sts 8 0).replies = [(emptyInterest.name, duoReply0.content, 1000)]) &&
    decide ((gat duoCfg sts 8 1).replies = [(emptyInterest.name, duoReply1.content, 1000)]) &&
    decide (updateCalls (gat duoCfg sts 8 0).log = [[⟨pB, 1, 3, 0⟩]])) = some true := by decide +kernel

/-- Non-vacuity for C123: in a group of two nodes the bound is reached: the other node has published once, and there was one call. -/
example : ∃ (g : Nat → Fin 2 → Full) (who : Nat → Fin 2) (what : Nat → Full.Op), IsGroup duoCfg ∧ GRun duoCfg g who what 8 ∧
    Sane duoCfg (g 8) ∧ (∀ n < 8, who n = 0 → ∀ p, ¬ (what n).Removes p) ∧ (updateCalls (g 8 0).log).length = 1 ∧
    (((List.finRange 2).filter (fun j => j ≠ 0)).map (fun j => (g 8 j).made.length)).sum = 1 := by
  obtain ⟨sts, h1, h2⟩ := Option.of_map duo_calls
  simp only [Bool.and_eq_true, decide_eq_true_eq] at h2
  obtain ⟨⟨⟨⟨m0, m1⟩, r0⟩, r1⟩, hc⟩ := h2
  refine ⟨gat duoCfg sts, gwho duoEvents 0, gwhat duoEvents, duoCfg_group, grun_sound h1 0, ?_, fun k _ _ p => no_removal (by decide) k p,
    by rw [hc]; rfl, ?_⟩
  · refine sane_duo ?_ ?_ ?_ ?_ (by rw [r0]; decide) (by rw [r1]; decide)
    · rw [m0]; intro e he; rw [List.mem_singleton.mp he]; exact nameOf_valid (by decide)
    · rw [m1]; intro e he; rw [List.mem_singleton.mp he]; exact nameOf_valid (by decide)
    · rw [r0]; intro e he; rw [List.mem_singleton.mp he]; decide
    · rw [r1]; intro e he; rw [List.mem_singleton.mp he]; decide
  · have : (List.finRange 2).filter (fun j => j ≠ 0) = [1] := by decide
    rw [this]
    simp [m1]

end PSync
