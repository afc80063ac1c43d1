import Verif.Props.Group
/-!
Replies of the same version from two nodes.
-/
namespace PSync
open Spec

/-! ### C56 is false as stated -/

/-- The full claim: no node ever holds more than the largest number published for the prefix. -/
def Spec.NoInvention : Prop :=
  ∀ (k : Nat) (cfg : Fin k → Cfg) (g : Nat → Fin k → Full) (who : Nat → Fin k) (what : Nat → Full.Op) (len : Nat),
    IsGroup cfg → GRun cfg g who what len → Sendable cfg (g len) →
    ∀ i p x, (g len i).base.getSeqNo p = some x → x ≠ 0 → ∃ q, x ≤ q ∧ PublishedBy (g len) p q

/-- Three nodes that count their versions alike. -/
def trioCfg (_ : Fin 3) : Cfg := sampleCfg

/-- Prefixes that are just so long that the number falls into the second segment of a reply. -/
def longA : Name := nameOf (List.replicate 4388 97)
def longB : Name := nameOf (List.replicate 4388 98)

/-- The first segment of the reply with longA/1, and the second one of the reply with longB/9. -/
def mixedSegs : List Data :=
  [⟨emptyInterest.name ++ [⟨54, [1]⟩, ⟨50, [0]⟩], .blob, (encodeNames [longA.appendNumber 1]).take 4400, 1000, some ⟨50, [1]⟩⟩,
   ⟨emptyInterest.name ++ [⟨54, [1]⟩, ⟨50, [1]⟩], .blob, (encodeNames [longB.appendNumber 9]).drop 4400, 1000, some ⟨50, [1]⟩⟩]

/-- Nodes 0 and 1 publish longA/1 and longB/9 and answer the same Interest of node 2 with the same version; node 2
receives the first segment from node 0 and the second one from node 1. -/
def mixedEvents : List (GEv 3) :=
  [{ who := 0, what := .call (.addUserNode longA) }, { who := 0, what := .call (.publishName longA (some 1)) },
   { who := 1, what := .call (.addUserNode longB) }, { who := 1, what := .call (.publishName longB (some 9)) },
   { who := 0, what := .recvInterest emptyInterest }, { who := 1, what := .recvInterest emptyInterest },
   { who := 1, what := .recvInterest ⟨emptyInterest.name ++ [⟨54, [1]⟩, ⟨50, [1]⟩], 1000, 8⟩ },
   { who := 2, what := .complete (mixedSegs.map Data.content).flatten [], name := emptyInterest.name,
     base := emptyInterest.name ++ [⟨54, [1]⟩], segs := mixedSegs }]

set_option maxRecDepth 100000 in
theorem mixed_run : (grun trioCfg mixedEvents).map (fun sts =>
    decide ((gat trioCfg sts 8 0).made = [(longA, 1)]) && decide ((gat trioCfg sts 8 1).made = [(longB, 9)]) &&
    decide ((gat trioCfg sts 8 2).made = []) &&
    decide ((gat trioCfg sts 8 0).replies.map (·.2.1.length) = [4403]) &&
    decide ((gat trioCfg sts 8 1).replies.map (·.2.1.length) = [4403]) &&
    decide ((gat trioCfg sts 8 2).replies.map (·.2.1.length) = []) &&
    decide ((gat trioCfg sts 8 2).base.getSeqNo longA = some 9)) = some true := by decide +kernel

set_option maxRecDepth 100000 in
theorem longA_ne : longA ≠ longB := by decide +kernel

/-- C56 is false as stated: the version of a reply is its time stamp in milliseconds.  If two nodes answer the same
Interest in the same millisecond with replies of several segments, a fetch can put together a reply that neither
of them has sent, and the receiver holds longA/9 although only longA/1 and longB/9 were published. -/
theorem c56_false : ¬ Spec.NoInvention := by
  intro hclaim
  obtain ⟨sts, h1, h2⟩ := Option.of_map mixed_run
  simp only [Bool.and_eq_true, decide_eq_true_eq] at h2
  obtain ⟨⟨⟨⟨⟨⟨m0, m1⟩, m2⟩, r0⟩, r1⟩, r2⟩, n2⟩ := h2
  have hrun := grun_sound h1 0
  have hr : ∀ j : Fin 3, ∀ e ∈ (gat trioCfg sts 8 j).replies, e.2.1.length ≤ 4403 := by
    intro j e he
    have := List.mem_map_of_mem (f := fun x : Name × Bytes × Nat => x.2.1.length) he
    match j with
    | 0 => rw [r0] at this; exact le_of_eq (List.mem_singleton.mp this)
    | 1 => rw [r1] at this; exact le_of_eq (List.mem_singleton.mp this)
    | 2 => rw [r2] at this; simp at this
  have hl : ∀ j : Fin 3, (gat trioCfg sts 8 j).replies.length ≤ 1 := by
    intro j
    match j with
    | 0 => have := congrArg List.length r0; simp at this; omega
    | 1 => have := congrArg List.length r1; simp at this; omega
    | 2 => have := congrArg List.length r2; simp at this; simp [this]
  have hsend : Sendable trioCfg (gat trioCfg sts 8) := by
    refine ⟨?_, ?_, ?_⟩
    · intro j e he
      match j with
      | 0 => rw [m0] at he; rw [List.mem_singleton.mp he]; exact nameOf_valid (by rw [List.length_replicate]; decide)
      | 1 => rw [m1] at he; rw [List.mem_singleton.mp he]; exact nameOf_valid (by rw [List.length_replicate]; decide)
      | 2 => rw [m2] at he; simp at he
    · intro j e he
      have h := hr j e he
      refine ⟨by omega, ?_⟩
      intro raw hraw
      simp only [trioCfg, sampleCfg, Codec.none, Option.some.injEq] at hraw
      rw [← hraw]; omega
    · intro j a ha
      have := hl j
      simp only [trioCfg, sampleCfg]
      omega
  obtain ⟨q, hq, j, hj⟩ := hclaim 3 trioCfg (gat trioCfg sts) (gwho mixedEvents 0) (gwhat mixedEvents) 8
    ⟨fun _ _ => ⟨rfl, rfl, rfl, rfl⟩, fun _ => sampleCfg_wf, fun _ => by simp [trioCfg, sampleCfg]⟩ hrun hsend 2 longA 9 n2
    (by decide)
  match j with
  | 0 =>
    rw [m0] at hj
    have := congrArg Prod.snd (List.mem_singleton.mp hj)
    simp only at this
    omega
  | 1 =>
    rw [m1] at hj
    exact longA_ne (congrArg Prod.fst (List.mem_singleton.mp hj))
  | 2 => rw [m2] at hj; simp at hj

end PSync
