import Verif.Proofs.Group
import Verif.Props.GroupSample
import Verif.Props.FullMerge
import Mathlib.Data.List.Sublists
/-!
Theorems about groups of full-sync nodes.
-/
namespace PSync
open Spec

section
variable {ι : Type} {cfg : ι → Cfg} {g : Nat → ι → Full} {who : Nat → ι} {what : Nat → Full.Op} {len : Nat}

/-- C56, partial: in every state of every run, every number a node holds for a prefix, and every number it
reports, has been published for that prefix by a node of the group.
(Missing: runs in which two replies carry the same version, for which the claim is false, `c56_false`; and runs
in which an application publishes under something that is not a name, or a reply has 2^64 bytes.) -/
theorem c56_no_invention_partial (hg : IsGroup cfg) (h : GRun cfg g who what len) (hs : Sane cfg (g len))
    (n : Nat) (hn : n ≤ len) (i : ι) :
    (∀ p x, (g n i).base.getSeqNo p = some x → x ≠ 0 → PublishedBy (g n) p x) ∧
    (∀ us, Out.update us ∈ (g n i).log → ∀ u ∈ us, PublishedBy (g n) u.pfx u.highSeq) := by
  have hsrc := h.sourced hg hs hn i
  exact ⟨fun p x hp hx => (hsrc.base.table p x hp).resolve_left hx, hsrc.updates⟩

/-- What C56 calls published: a node has published `q` for `p` only if an earlier event of the run
called publishName for `p`, with `q` as argument or leaving the number to the producer. -/
theorem c56_publisher (h : GRun cfg g who what len) (n : Nat) (hn : n ≤ len) (p : Name) (q : Nat)
    (hp : PublishedBy (g n) p q) : ∃ k < n, (what k).PublishesAs p q := by
  obtain ⟨i, hi⟩ := hp
  obtain ⟨k, hk, _, h1⟩ := h.publisher hn hi
  exact ⟨k, hk, h1⟩

/-- Without publications since `t`, a node that covers all tables of that moment holds exactly the largest numbers. -/
theorem Spec.GRun.converged (hg : IsGroup cfg) (h : GRun cfg g who what len) (hs : Sane cfg (g len))
    (hrem : ∀ k < len, ∀ p, ¬ (what k).Removes p) {t : Nat} (htl : t ≤ len)
    (hstop : ∀ k, t ≤ k → k < len → ∀ p, ¬ (what k).Publishes p) (i : ι)
    (hcov : ∀ j, Covers (g t j).base.getSeqNo (g len i).base.getSeqNo) (p : Name) :
    (∀ j, numberOf (g t j) p ≤ numberOf (g len i) p) ∧
    (numberOf (g len i) p = 0 ∨ ∃ j, numberOf (g len i) p = numberOf (g t j) p) := by
  have low : ∀ j, numberOf (g t j) p ≤ numberOf (g len i) p := by
    intro j
    have := hcov j
    unfold numberOf
    cases hj : (g t j).base.getSeqNo p with
    | none => simp
    | some x =>
      by_cases hx : x = 0
      · simp [hx]
      · obtain ⟨y, hy, hle⟩ := this p x hj hx
        rw [hy]; simpa using hle
  refine ⟨low, ?_⟩
  by_cases h0 : numberOf (g len i) p = 0
  · exact Or.inl h0
  · right
    cases hi : (g len i).base.getSeqNo p with
    | none => simp [numberOf, hi] at h0
    | some x =>
      have hx : x ≠ 0 := by simpa [numberOf, hi] using h0
      obtain ⟨k, hk⟩ := (c56_no_invention_partial hg h hs len (le_refl _) i).1 p x hi hx
      have hk' : (p, x) ∈ (g t k).made := by
        have := (h.span htl (le_refl _) k).noPublish (by rintro p q ⟨k', h1, h2, h3⟩; exact hstop k' h1 h2 p h3)
        simp only [Full.view] at this
        rw [← this]; exact hk
      have hown := (h.span (Nat.zero_le t) htl k).ownMade (by rintro p ⟨k', _, h2, h3⟩; exact hrem k' (by omega) p h3)
        (by
          have h1 : Micros (Full.rules (cfg k) Full.knownP (fun _ => False) (fun _ _ => False) (fun _ => False))
              ⟨Base.new (cfg k), SegPub.empty, [], [], [], 0⟩ (g 0 k).view :=
            Full.sendSyncInterest_micro (cfg := cfg k)
              (ρ := Full.rules (cfg k) Full.knownP (fun _ => False) (fun _ _ => False) (fun _ => False))
              (fun b n hn => ⟨hn, rfl⟩) (h.init k)
          rw [h1.noPublish (fun _ _ h => h)]
          simp) (p, x) hk'
      obtain ⟨y, hy, hle⟩ := hown
      refine ⟨k, ?_⟩
      have h1 := low k
      have hy' : (g t k).base.getSeqNo p = some y := hy
      simp only [numberOf, hi, hy', Option.getD_some] at h1 ⊢
      simp only at hle
      omega

/-- C57, partial: nobody publishes after `t` events, and after that exchanges carry what each node knew then to
every other node.  Then every node holds, for every prefix, the largest number that any node held at `t`.
(Missing: exchanges answered from the segment store, for which the claim is false, `c57_false`; prefixes that
are registered but never published, which are not propagated; runs with removals, hash collisions or two replies
of the same version; exchanges in which the answer is delayed or the difference cannot be decoded and the responder
stays silent.) -/
theorem c57_converge_partial (hg : IsGroup cfg) (h : GRun cfg g who what len) (hs : Sane cfg (g len))
    (hrem : ∀ k < len, ∀ p, ¬ (what k).Removes p) (hnc : ∀ i, NoCollisionsIn (cfg i).expected (PublishedBy (g len)))
    (t : Nat) (hstop : ∀ k, t ≤ k → k < len → ∀ p, ¬ (what k).Publishes p)
    (hpath : ∀ j i, Path NotStored cfg g who what j t i len) (i : ι) (p : Name) :
    (∀ j, numberOf (g t j) p ≤ numberOf (g len i) p) ∧
    (numberOf (g len i) p = 0 ∨ ∃ j, numberOf (g len i) p = numberOf (g t j) p) := by
  exact h.converged hg hs hrem (h.path hg hs hrem hnc (hpath i i) (le_refl _)).1 hstop i
    (fun j => (h.path hg hs hrem hnc (hpath j i) (le_refl _)).2) p

end

/-! ### Sample groups -/

/-- Sets of hashes of at most two published names differ in at most two keys. -/
theorem diffCount_two {P : Name → Nat → Prop} {ps : List (Name × Nat)} (hP : ∀ p q, P p q → (p, q) ∈ ps)
    (hlen : ps.length ≤ 2) (A B : List U32) (hA : HashesOf P A) (hB : HashesOf P B) : diffCount A B ≤ 2 := by
  have hsub : ∀ C, HashesOf P C → ∀ k ∈ C, k ∈ ps.map (fun e => murmurName 11#32 (Name.appendNumber e.1 e.2)) := by
    intro C hC k hk
    obtain ⟨p, q, h1, rfl⟩ := hC.2 k hk
    exact List.mem_map.mpr ⟨(p, q), hP p q h1, rfl⟩
  have hnd : (A.filter (fun k => k ∉ B) ++ B.filter (fun k => k ∉ A)).Nodup := by
    rw [List.nodup_append]
    refine ⟨hA.1.filter _, hB.1.filter _, ?_⟩
    intro a ha b hb hab
    subst hab
    simp only [List.mem_filter, decide_eq_true_eq] at ha hb
    exact ha.2 hb.1
  have := (List.subperm_of_subset hnd (l₂ := ps.map (fun e => murmurName 11#32 (Name.appendNumber e.1 e.2))) (by
    intro k hk
    rcases List.mem_append.mp hk with h | h
    · exact hsub A hA k (List.mem_filter.mp h).1
    · exact hsub B hB k (List.mem_filter.mp h).1)).length_le
  rw [List.length_append, List.length_map] at this
  unfold diffCount
  omega

/-- If only the numbers in a list of at most two were published, `NoCollisionsIn` is a finite check. -/
theorem noCollisionsIn_two {P : Name → Nat → Prop} {ps : List (Name × Nat)} (hP : ∀ p q, P p q → (p, q) ∈ ps)
    (hlen : ps.length ≤ 2)
    (hne : ∀ n ∈ ps.flatMap (fun e => [Name.appendNumber e.1 e.2, Name.appendNumber e.1 ((e.2 + 1) % 2 ^ 64)]),
      ∀ n' ∈ ps.flatMap (fun e => [Name.appendNumber e.1 e.2, Name.appendNumber e.1 ((e.2 + 1) % 2 ^ 64)]),
      murmurName 11#32 n = murmurName 11#32 n' → n = n') (e : Nat) : NoCollisionsIn e P := by
  have near : ∀ n, Near P n →
      n ∈ ps.flatMap (fun e => [Name.appendNumber e.1 e.2, Name.appendNumber e.1 ((e.2 + 1) % 2 ^ 64)]) := by
    rintro n ⟨p, q, h1, h2⟩
    rw [List.mem_flatMap]
    exact ⟨(p, q), hP p q h1, by simpa using h2⟩
  have hl := diffCount_two hP hlen
  exact ⟨fun n n' hn hn' => hne n (near n hn) n' (near n' hn'), fun A B hA hB => noCollision_two (hl A B hA hB),
    fun A B hA hB => lt_of_le_of_lt (hl A B hA hB) (by decide)⟩

theorem xorAll_perm {l l' : List U32} (h : l.Perm l') : xorAll l = xorAll l' := by
  induction h with
  | nil => rfl
  | cons x _ ih => simp [xorAll, ih]
  | swap x y l => simp only [xorAll]; rw [BitVec.xor_assoc, BitVec.xor_comm x y, ← BitVec.xor_assoc]
  | trans _ _ ih1 ih2 => rw [ih1, ih2]

/-- If only the numbers in a list were published, `NoCollisionsIn` is a finite check. -/
theorem noCollisionsIn_list {P : Name → Nat → Prop} {ps : List (Name × Nat)} (hP : ∀ p q, P p q → (p, q) ∈ ps)
    (hlen : ps.length < 2147483647)
    (hne : ∀ n ∈ ps.flatMap (fun e => [Name.appendNumber e.1 e.2, Name.appendNumber e.1 ((e.2 + 1) % 2 ^ 64)]),
      ∀ n' ∈ ps.flatMap (fun e => [Name.appendNumber e.1 e.2, Name.appendNumber e.1 ((e.2 + 1) % 2 ^ 64)]),
      murmurName 11#32 n = murmurName 11#32 n' → n = n')
    (hck : ∀ S ∈ (ps.map (fun e => murmurName 11#32 (Name.appendNumber e.1 e.2))).sublists', S.length ≤ 1 ∨
      (S.length % 2 = 1 ∧ xorAll (S.map check) ≠ check (xorAll S)) ∨
      (S.length % 2 = 0 ∧ ¬ (xorAll S = 0#32 ∧ xorAll (S.map check) = 0#32))) (e : Nat) : NoCollisionsIn e P := by
  have hsub : ∀ C, HashesOf P C → ∀ k ∈ C, k ∈ ps.map (fun e => murmurName 11#32 (Name.appendNumber e.1 e.2)) := by
    intro C hC k hk
    obtain ⟨p, q, h1, rfl⟩ := hC.2 k hk
    exact List.mem_map.mpr ⟨(p, q), hP p q h1, rfl⟩
  have near : ∀ n, Near P n →
      n ∈ ps.flatMap (fun e => [Name.appendNumber e.1 e.2, Name.appendNumber e.1 ((e.2 + 1) % 2 ^ 64)]) := by
    rintro n ⟨p, q, h1, h2⟩
    rw [List.mem_flatMap]
    exact ⟨(p, q), hP p q h1, by simpa using h2⟩
  refine ⟨fun n n' hn hn' => hne n (near n hn) n' (near n' hn'), fun A B hA hB => ?_, fun A B hA hB => ?_⟩
  · rintro j D N ⟨hD, hN, hDA, hNB⟩
    have hnd : (D ++ N).Nodup := by
      rw [List.nodup_append]
      refine ⟨hD, hN, ?_⟩
      intro a ha b hb hab
      subst hab
      exact (hDA a ha).2.1 (hNB a hb).1
    obtain ⟨S, hS, hSk⟩ := List.subperm_of_subset hnd
        (l₂ := ps.map (fun e => murmurName 11#32 (Name.appendNumber e.1 e.2))) (by
      intro k hk
      rcases List.mem_append.mp hk with h | h
      · exact hsub A hA k (hDA k h).1
      · exact hsub B hB k (hNB k h).1)
    have h1 := hck S (List.mem_sublists'.mpr hSk)
    rw [xorAll_perm hS, xorAll_perm (hS.map check), hS.length_eq, List.length_append] at h1
    constructor
    · intro hc hx
      rcases h1 with h1 | ⟨_, h1⟩ | ⟨h1, _⟩
      · omega
      · exact absurd hx h1
      · omega
    · intro hc hx hy
      rcases h1 with h1 | ⟨h1, _⟩ | ⟨_, h1⟩
      · exact List.eq_nil_of_length_eq_zero (by omega)
      · omega
      · exact absurd ⟨hx, hy⟩ h1
  · have hnd : (A.filter (fun k => k ∉ B) ++ B.filter (fun k => k ∉ A)).Nodup := by
      rw [List.nodup_append]
      refine ⟨hA.1.filter _, hB.1.filter _, ?_⟩
      intro a ha b hb hab
      subst hab
      simp only [List.mem_filter, decide_eq_true_eq] at ha hb
      exact ha.2 hb.1
    have := (List.subperm_of_subset hnd (l₂ := ps.map (fun e => murmurName 11#32 (Name.appendNumber e.1 e.2))) (by
      intro k hk
      rcases List.mem_append.mp hk with h | h
      · exact hsub A hA k (List.mem_filter.mp h).1
      · exact hsub B hB k (List.mem_filter.mp h).1)).length_le
    rw [List.length_append, List.length_map] at this
    unfold diffCount
    omega

/-- Two nodes with the settings of `sampleCfg`; one uses odd, the other even versions. -/
def duoCfg (i : Fin 2) : Cfg := { sampleCfg with version := fun n => 2 * n + i.val + 1 }

theorem duoCfg_group : IsGroup duoCfg :=
  ⟨fun _ _ => ⟨rfl, rfl, rfl, rfl⟩, fun _ => ⟨sampleCfg_wf.jitter_lo, sampleCfg_wf.jitter_hi, none_lossless, none_lossless⟩,
   fun _ => by simp [duoCfg, sampleCfg]⟩

/-- The packet with which node 0 answers, and the one with which node 1 answers. -/
def duoReply0 : Data := ⟨emptyInterest.name ++ [⟨54, [1]⟩, ⟨50, [0]⟩], .blob, encodeNames [pA.appendNumber 1], 1000, some ⟨50, [0]⟩⟩
def duoReply1 : Data :=
  ⟨emptyInterest.name ++ [⟨54, [2]⟩, ⟨50, [0]⟩], .blob, encodeNames [pA.appendNumber 1, pB.appendNumber 3], 1000, some ⟨50, [0]⟩⟩

/-- Node 0 publishes /a/1, node 1 publishes /b/3; node 0 answers the Interest of node 1, then node 1 the
Interest of node 0. -/
def duoEvents : List (GEv 2) :=
  [{ who := 0, what := .call (.addUserNode pA) }, { who := 0, what := .call (.publishName pA (some 1)) },
   { who := 1, what := .call (.addUserNode pB) }, { who := 1, what := .call (.publishName pB (some 3)) },
   { who := 0, what := .recvInterest emptyInterest },
   { who := 1, what := .complete duoReply0.content [], name := emptyInterest.name,
     base := emptyInterest.name ++ [⟨54, [1]⟩], segs := [duoReply0] },
   { who := 1, what := .recvInterest emptyInterest },
   { who := 0, what := .complete duoReply1.content [], name := emptyInterest.name,
     base := emptyInterest.name ++ [⟨54, [2]⟩], segs := [duoReply1] }]

theorem duo_run : (grun duoCfg duoEvents).map (fun sts =>
    decide ((gat duoCfg sts 8 0).made = [(pA, 1)]) && decide ((gat duoCfg sts 8 1).made = [(pB, 3)]) &&
    decide ((gat duoCfg sts 8 0).replies = [(emptyInterest.name, duoReply0.content, 1000)]) &&
    decide ((gat duoCfg sts 8 1).replies = [(emptyInterest.name, duoReply1.content, 1000)]) &&
    decide (Out.interest emptyInterest.name 1000 ∈ (gat duoCfg sts 4 1).log) &&
    decide (Out.interest emptyInterest.name 1000 ∈ (gat duoCfg sts 6 0).log) &&
    decide ((gat duoCfg sts 4 0).pub.replyFromStore emptyInterest.name = none) &&
    decide ((gat duoCfg sts 6 1).pub.replyFromStore emptyInterest.name = none) &&
    decide (Out.data duoReply0 ∈ newOutput (gat duoCfg sts 4 0) (gat duoCfg sts 5 0)) &&
    decide (Out.data duoReply1 ∈ newOutput (gat duoCfg sts 6 1) (gat duoCfg sts 7 1)) &&
    ((gat duoCfg sts 5 1).fetcher).any (·.active) && ((gat duoCfg sts 7 0).fetcher).any (·.active) &&
    decide (Out.interest emptyInterest.name 1000 ∈ (gat duoCfg sts 5 1).log) &&
    decide (Out.interest emptyInterest.name 1000 ∈ (gat duoCfg sts 7 0).log) &&
    fetchedB ((sts[5]?).getD []) emptyInterest.name (emptyInterest.name ++ [⟨54, [1]⟩]) [duoReply0] duoReply0.content &&
    fetchedB ((sts[7]?).getD []) emptyInterest.name (emptyInterest.name ++ [⟨54, [2]⟩]) [duoReply1] duoReply1.content &&
    decide ((sts.map List.length) = List.replicate 9 2) &&
    decide ((numberOf (gat duoCfg sts 4 0) pA, numberOf (gat duoCfg sts 4 0) pB) = (1, 0)) &&
    decide ((numberOf (gat duoCfg sts 4 1) pA, numberOf (gat duoCfg sts 4 1) pB) = (0, 3)) &&
    decide ((numberOf (gat duoCfg sts 8 0) pA, numberOf (gat duoCfg sts 8 0) pB) = (1, 3)) &&
    decide ((numberOf (gat duoCfg sts 8 1) pA, numberOf (gat duoCfg sts 8 1) pB) = (1, 3)))
    = some true := by decide +kernel


theorem Option.of_map {α β : Type} {x : Option α} {f : α → β} {b : β} (h : x.map f = some b) : ∃ a, x = some a ∧ f a = b := by
  simpa [Option.map_eq_some_iff] using h

theorem fin2_forall {P : Fin 2 → Prop} : (∀ i, P i) ↔ P 0 ∧ P 1 := by
  constructor
  · exact fun h => ⟨h 0, h 1⟩
  · rintro ⟨h0, h1⟩ i
    match i with
    | 0 => exact h0
    | 1 => exact h1

theorem nameOf_valid {bs : Bytes} (h : bs.length < 2 ^ 64) : (nameOf bs).Valid := by
  intro c hc
  rw [List.mem_singleton.mp hc]
  exact ⟨(by decide : (8 : Nat) ≠ 0), (by decide : (8 : Nat) < 4294967296), h⟩

theorem sane_duo {g : Fin 2 → Full} (h0 : ∀ e ∈ (g 0).made, e.1.Valid) (h1 : ∀ e ∈ (g 1).made, e.1.Valid)
    (h2 : ∀ e ∈ (g 0).replies, e.2.1.length < 2 ^ 64) (h3 : ∀ e ∈ (g 1).replies, e.2.1.length < 2 ^ 64)
    (h4 : (g 0).replies.length < 1000) (h5 : (g 1).replies.length < 1000) : Sane duoCfg g := by
  have hr : ∀ i : Fin 2, (g i).replies.length < 1000 := fin2_forall.mpr ⟨h4, h5⟩
  refine ⟨⟨fin2_forall.mpr ⟨h0, h1⟩, ?_, ?_⟩, ?_⟩
  · have hb : ∀ j : Fin 2, ∀ e ∈ (g j).replies, e.2.1.length < 2 ^ 64 := fin2_forall.mpr ⟨h2, h3⟩
    intro j e he
    refine ⟨hb j e he, ?_⟩
    intro raw hraw
    simp only [duoCfg, sampleCfg, Codec.none, Option.some.injEq] at hraw
    rw [← hraw]; exact hb j e he
  · intro j a ha
    have := hr j
    simp only [duoCfg]
    omega
  · intro i j a ha b hb heq
    simp only [duoCfg] at heq
    have hij : i.val = j.val := by omega
    refine ⟨Fin.ext hij, by omega⟩

def noRemovalB {k : Nat} (e : GEv k) : Bool :=
  match e.what with
  | .call (.removeUserNode _) => false
  | .complete _ acts => acts.isEmpty
  | _ => true

theorem no_removal {k : Nat} {es : List (GEv k)} (h : es.all noRemovalB = true) (n : Nat) (p : Name) : ¬ (gwhat es n).Removes p := by
  rw [List.all_eq_true] at h
  unfold gwhat
  cases he : es[n]? with
  | none => simp [Full.Op.Removes]
  | some e =>
    have := h e (List.mem_of_getElem? he)
    unfold noRemovalB at this
    simp only [Option.map_some, Option.getD_some]
    split at this
    · simp at this
    · rename_i hw
      rw [hw]
      rw [List.isEmpty_iff] at this
      subst this
      simp [Full.Op.Removes]
    · rename_i h1 h2
      cases hw : e.what with
      | call c =>
        cases c with
        | removeUserNode q => exact absurd hw (h1 q)
        | _ => simp [Full.Op.Removes, Full.Call.Removes]
      | complete buf acts => exact absurd hw (h2 buf acts)
      | _ => simp [Full.Op.Removes]

def noPublicationB {k : Nat} (e : GEv k) : Bool :=
  match e.what with
  | .call (.publishName _ _) => false
  | .complete _ acts => acts.isEmpty
  | _ => true

/-- From event `t` on, nobody publishes. -/
theorem no_publication {k : Nat} {es : List (GEv k)} {t : Nat} (h : (es.drop t).all noPublicationB = true) (n : Nat) (hn : t ≤ n) (p : Name) : ¬ (gwhat es n).Publishes p := by
  rw [List.all_eq_true] at h
  unfold gwhat
  cases he : es[n]? with
  | none => simp [Full.Op.Publishes]
  | some e =>
    have := h e (by
      refine List.mem_of_getElem? (i := n - t) ?_
      rw [List.getElem?_drop, show t + (n - t) = n by omega]
      exact he)
    unfold noPublicationB at this
    simp only [Option.map_some, Option.getD_some]
    split at this
    · simp at this
    · rename_i hw
      rw [hw]
      rw [List.isEmpty_iff] at this
      subst this
      simp [Full.Op.Publishes]
    · rename_i h1 h2
      cases hw : e.what with
      | call c =>
        cases c with
        | publishName q x => exact absurd hw (h1 q x)
        | _ => simp [Full.Op.Publishes, Full.Call.Publishes]
      | complete buf acts => exact absurd hw (h2 buf acts)
      | _ => simp [Full.Op.Publishes]


set_option maxRecDepth 4000 in
/-- Non-vacuity for C56 and C57: a run of two nodes that meets all hypotheses of `c57_converge_partial` (and so of
`c56_no_invention_partial`), with publications at both nodes before event 4 and exchanges in both directions after
it; at the end both hold /a/1 and /b/3. -/
theorem c57_sample : ∃ (g : Nat → Fin 2 → Full) (who : Nat → Fin 2) (what : Nat → Full.Op),
    GRun duoCfg g who what 8 ∧ Sane duoCfg (g 8) ∧ (∀ k < 8, ∀ p, ¬ (what k).Removes p) ∧
    (∀ i, NoCollisionsIn (duoCfg i).expected (PublishedBy (g 8))) ∧
    (∀ k, 4 ≤ k → k < 8 → ∀ p, ¬ (what k).Publishes p) ∧
    (∀ j i, Path NotStored duoCfg g who what j 4 i 8) ∧
    (numberOf (g 4 0) pA, numberOf (g 4 0) pB) = (1, 0) ∧ (numberOf (g 4 1) pA, numberOf (g 4 1) pB) = (0, 3) ∧
    (∀ i, (numberOf (g 8 i) pA, numberOf (g 8 i) pB) = (1, 3)) := by
  obtain ⟨sts, h1, h2⟩ := Option.of_map duo_run
  simp only [Bool.and_eq_true, decide_eq_true_eq, Option.any_eq_true] at h2
  obtain ⟨⟨⟨⟨⟨⟨⟨⟨⟨⟨⟨⟨⟨⟨⟨⟨⟨⟨⟨⟨m0, m1⟩, r0⟩, r1⟩, i4⟩, i6⟩, s4⟩, s6⟩, d4⟩, d6⟩, f5⟩, f7⟩, i5⟩, i7⟩, b5⟩, b7⟩, hl⟩, n40⟩, n41⟩, n80⟩, n81⟩ := h2
  have hrun := grun_sound h1 0
  have hlen : ∀ n, n < 9 → ((sts[n]?).getD []).length = 2 := by
    intro n hn
    have := congrArg (·[n]?) hl
    simp only [List.getElem?_map, List.getElem?_replicate, if_pos hn] at this
    cases hx : sts[n]? with
    | none => simp [hx] at this
    | some x => simpa [hx] using this
  refine ⟨gat duoCfg sts, gwho duoEvents 0, gwhat duoEvents, hrun, ?_, fun k _ p => no_removal (by decide) k p, ?_,
    fun k h4 _ p => no_publication (by decide) k h4 p, ?_, n40, n41, fin2_forall.mpr ⟨n80, n81⟩⟩
  · refine sane_duo ?_ ?_ ?_ ?_ ?_ ?_
    · rw [m0]; intro e he; rw [List.mem_singleton.mp he]; exact nameOf_valid (by decide)
    · rw [m1]; intro e he; rw [List.mem_singleton.mp he]; exact nameOf_valid (by decide)
    · rw [r0]; intro e he; rw [List.mem_singleton.mp he]; decide
    · rw [r1]; intro e he; rw [List.mem_singleton.mp he]; decide
    · rw [r0]; decide
    · rw [r1]; decide
  · intro i
    refine noCollisionsIn_two (ps := [(pA, 1), (pB, 3)]) ?_ (by decide) (by decide +kernel) _
    rintro p q ⟨j, hj⟩
    match j with
    | 0 => rw [m0] at hj; rw [List.mem_singleton.mp hj]; simp
    | 1 => rw [m1] at hj; rw [List.mem_singleton.mp hj]; simp
  · have p01 : Path NotStored duoCfg (gat duoCfg sts) (gwho duoEvents 0) (gwhat duoEvents) 0 4 1 8 := by
      refine .next 0 1 4 6 8 (.same 4 (by decide)) (.answered emptyInterest duoReply0 5 ⟨rfl, rfl, 1000, i4⟩ s4 d4 (by decide)
        ⟨rfl, f5, emptyInterest.name, 1000, [duoReply0], _, [], i5, fetched_of (hlen 5 (by decide)) b5, rfl, rfl⟩) (by decide)
    have p10 : Path NotStored duoCfg (gat duoCfg sts) (gwho duoEvents 0) (gwhat duoEvents) 1 4 0 8 := by
      refine .next 1 0 6 8 8 (.same 6 (by decide)) (.answered emptyInterest duoReply1 7 ⟨rfl, rfl, 1000, i6⟩ s6 d6 (by decide)
        ⟨rfl, f7, emptyInterest.name, 1000, [duoReply1], _, [], i7, fetched_of (hlen 7 (by decide)) b7, rfl, rfl⟩) (by decide)
    intro j i
    match j, i with
    | 0, 0 => exact .same 8 (by decide)
    | 1, 1 => exact .same 8 (by decide)
    | 0, 1 => exact p01
    | 1, 0 => exact p10


/-! ### C57 is false as stated -/

/-- The full claim: as `c57_converge_partial`, but with exchanges that may be answered from the segment store. -/
def Spec.GroupConverges : Prop :=
  ∀ (k : Nat) (cfg : Fin k → Cfg) (g : Nat → Fin k → Full) (who : Nat → Fin k) (what : Nat → Full.Op) (len t : Nat),
    IsGroup cfg → GRun cfg g who what len → Sane cfg (g len) → (∀ k < len, ∀ p, ¬ (what k).Removes p) →
    (∀ i, NoCollisionsIn (cfg i).expected (PublishedBy (g len))) →
    (∀ k, t ≤ k → k < len → ∀ p, ¬ (what k).Publishes p) →
    (∀ j i, Path (fun _ _ => True) cfg g who what j t i len) →
    ∀ i j p, numberOf (g len i) p = numberOf (g len j) p

/-- The reply with /a/1 that node 0 still has in its store after publishing /a/2, and the reply of node 1. -/
def staleReply0 : Data := ⟨emptyInterest.name ++ [⟨54, [1]⟩, ⟨50, [0]⟩], .blob, encodeNames [pA.appendNumber 1], 1000, some ⟨50, [0]⟩⟩
def staleReply1 : Data := ⟨emptyInterest.name ++ [⟨54, [2]⟩, ⟨50, [0]⟩], .blob, encodeNames [pA.appendNumber 1], 1000, some ⟨50, [0]⟩⟩

/-- An Interest of node 1 is parked at node 0 and answered when /a/1 is published; /a/2 is published; then node 1
fetches the stored answer to its Interest, and node 0 fetches the answer of node 1. -/
def staleEvents : List (GEv 2) :=
  [{ who := 0, what := .call (.addUserNode pA) }, { who := 0, what := .recvInterest emptyInterest },
   { who := 0, what := .call (.publishName pA (some 1)) }, { who := 0, what := .call (.publishName pA (some 2)) },
   { who := 0, what := .recvInterest emptyInterest },
   { who := 1, what := .complete staleReply0.content [], name := emptyInterest.name,
     base := emptyInterest.name ++ [⟨54, [1]⟩], segs := [staleReply0] },
   { who := 1, what := .recvInterest emptyInterest },
   { who := 0, what := .complete staleReply1.content [], name := emptyInterest.name,
     base := emptyInterest.name ++ [⟨54, [2]⟩], segs := [staleReply1] }]

theorem stale_run : (grun duoCfg staleEvents).map (fun sts =>
    decide ((gat duoCfg sts 8 0).made = [(pA, 1), (pA, 2)]) && decide ((gat duoCfg sts 8 1).made = []) &&
    decide (((gat duoCfg sts 8 0).replies.map (·.2.1.length)).all (· < 1000)) &&
    decide (((gat duoCfg sts 8 1).replies.map (·.2.1.length)).all (· < 1000)) &&
    decide (Out.interest emptyInterest.name 1000 ∈ (gat duoCfg sts 4 1).log) &&
    decide (Out.interest emptyInterest.name 1000 ∈ (gat duoCfg sts 6 0).log) &&
    decide (Out.data staleReply0 ∈ newOutput (gat duoCfg sts 4 0) (gat duoCfg sts 5 0)) &&
    decide (Out.data staleReply1 ∈ newOutput (gat duoCfg sts 6 1) (gat duoCfg sts 7 1)) &&
    ((gat duoCfg sts 5 1).fetcher).any (·.active) && ((gat duoCfg sts 7 0).fetcher).any (·.active) &&
    decide (Out.interest emptyInterest.name 1000 ∈ (gat duoCfg sts 5 1).log) &&
    decide (Out.interest emptyInterest.name 1000 ∈ (gat duoCfg sts 7 0).log) &&
    fetchedB ((sts[5]?).getD []) emptyInterest.name (emptyInterest.name ++ [⟨54, [1]⟩]) [staleReply0] staleReply0.content &&
    fetchedB ((sts[7]?).getD []) emptyInterest.name (emptyInterest.name ++ [⟨54, [2]⟩]) [staleReply1] staleReply1.content &&
    decide ((sts.map List.length) = List.replicate 9 2) &&
    decide ((gat duoCfg sts 8 0).replies.length < 1000) && decide ((gat duoCfg sts 8 1).replies.length < 1000) &&
    decide (numberOf (gat duoCfg sts 8 0) pA = 2) && decide (numberOf (gat duoCfg sts 8 1) pA = 1))
    = some true := by decide +kernel

set_option maxRecDepth 4000 in
/-- C57 is false as stated: an exchange may be answered with a stored reply that predates the last publication, so
a node ends with /a/1 although the other one holds /a/2. -/
theorem c57_false : ¬ Spec.GroupConverges := by
  intro hclaim
  obtain ⟨sts, h1, h2⟩ := Option.of_map stale_run
  simp only [Bool.and_eq_true, decide_eq_true_eq, Option.any_eq_true] at h2
  obtain ⟨⟨⟨⟨⟨⟨⟨⟨⟨⟨⟨⟨⟨⟨⟨⟨⟨⟨m0, m1⟩, r0⟩, r1⟩, i4⟩, i6⟩, d4⟩, d6⟩, f5⟩, f7⟩, i5⟩, i7⟩, b5⟩, b7⟩, hl⟩, l0⟩, l1⟩, n0⟩, n1⟩ := h2
  have hrun := grun_sound h1 0
  have hlen : ∀ n, n < 9 → ((sts[n]?).getD []).length = 2 := by
    intro n hn
    have := congrArg (·[n]?) hl
    simp only [List.getElem?_map, List.getElem?_replicate, if_pos hn] at this
    cases hx : sts[n]? with
    | none => simp [hx] at this
    | some x => simpa [hx] using this
  have hsane : Sane duoCfg (gat duoCfg sts 8) := by
    simp only [List.all_eq_true, List.mem_map, decide_eq_true_eq, forall_exists_index, and_imp] at r0 r1
    refine sane_duo ?_ ?_ (fun e he => lt_trans (r0 _ e he rfl) (by decide)) (fun e he => lt_trans (r1 _ e he rfl) (by decide)) l0 l1
    · rw [m0]
      intro e he
      have : e.1 = pA := by
        rcases List.mem_cons.mp he with rfl | he
        · rfl
        · rw [List.mem_singleton.mp he]
      rw [this]; exact nameOf_valid (by decide)
    · rw [m1]; simp
  have hnc : ∀ i, NoCollisionsIn (duoCfg i).expected (PublishedBy (gat duoCfg sts 8)) := by
    intro i
    refine noCollisionsIn_two (ps := [(pA, 1), (pA, 2)]) ?_ (by decide) (by decide +kernel) _
    rintro p q ⟨j, hj⟩
    match j with
    | 0 => rw [m0] at hj; exact hj
    | 1 => rw [m1] at hj; simp at hj
  have := hclaim 2 duoCfg (gat duoCfg sts) (gwho staleEvents 0) (gwhat staleEvents) 8 4 duoCfg_group hrun hsane
    (fun k _ p => no_removal (by decide) k p) hnc (fun k h4 _ p => no_publication (by decide) k h4 p) (by
      have p01 : Path (fun _ _ => True) duoCfg (gat duoCfg sts) (gwho staleEvents 0) (gwhat staleEvents) 0 4 1 8 := by
        refine .next 0 1 4 6 8 (.same 4 (by decide)) (.answered emptyInterest staleReply0 5 ⟨rfl, rfl, 1000, i4⟩ trivial d4 (by decide)
          ⟨rfl, f5, emptyInterest.name, 1000, [staleReply0], _, [], i5, fetched_of (hlen 5 (by decide)) b5, rfl, rfl⟩) (by decide)
      have p10 : Path (fun _ _ => True) duoCfg (gat duoCfg sts) (gwho staleEvents 0) (gwhat staleEvents) 1 4 0 8 := by
        refine .next 1 0 6 8 8 (.same 6 (by decide)) (.answered emptyInterest staleReply1 7 ⟨rfl, rfl, 1000, i6⟩ trivial d6 (by decide)
          ⟨rfl, f7, emptyInterest.name, 1000, [staleReply1], _, [], i7, fetched_of (hlen 7 (by decide)) b7, rfl, rfl⟩) (by decide)
      intro j i
      match j, i with
      | 0, 0 => exact .same 8 (by decide)
      | 1, 1 => exact .same 8 (by decide)
      | 0, 1 => exact p01
      | 1, 0 => exact p10) 0 1 pA
  rw [n0, n1] at this
  simp at this

end PSync
