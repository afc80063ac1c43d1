import Verif.Proofs.Safe
import Verif.Props.Group
/-!
C60: honest traffic never makes a node of a group fail.
-/
namespace PSync
open Spec Base

section
variable {ι : Type} {cfg : ι → Cfg} {g : Nat → ι → Full} {who : Nat → ι} {what : Nat → Full.Op} {len : Nat}
  {P : Name → Nat → Prop}

/-- A sync Interest of a node that has held only numbers in `P` is one that every node can deal with. -/
theorem okName_of_sent (hg : IsGroup cfg) (hP : ∀ i, NoCollisionsIn (cfg i).expected P) {s : Full} {j : ι}
    (hr : Full.Reach (cfg j) s) (hs : TableSourced P s.base) {n : Name} {lt : Nat} (hn : Out.interest n lt ∈ s.log) (i : ι) :
    Full.OkName P (cfg i) n := by
  obtain ⟨b, hb, hnm, _⟩ := Full.reach_log hr hn
  have hsb := TableSourced.earlier hb.1 hb.2 hs
  have hinv := hb.1.inv (Base.inv_new (cfg j))
  have hx := hb.1.exact (Base.inv_new (cfg j)) (collisionFree_of (hP j) hsb) (Base.exact_new (cfg j))
  have he := (hg.same i j).expected
  rw [he] at hx
  have hok : OkBase P (cfg i).expected b := ⟨hinv, hx, hsb⟩
  have hra := hb.1.ranged (hg.expected j) (Base.ranged_new (cfg j))
  rw [he] at hra
  obtain ⟨c, h1, h2, h3⟩ := honest_name hra (hg.wf i).iblt_lossless hinv.ownLt
  have hnm' : Full.syncName (cfg j) b = .ok n := hnm
  rw [syncName_congr (hg.same i j), h1, Res.ok.injEq] at hnm'
  exact ⟨c, _, _, b.iblt, hnm'.symm, h3, h2, hok.table⟩

theorem OkName.other {c : Cfg} {n : Name} (h : Full.OkName P c n) (v k : Tlv) :
    ((n ++ [v, k]).drop c.syncPrefix.length).length ≠ 2 := by
  obtain ⟨a, d, x, t, rfl, _⟩ := h
  simp

/-- One event, given that all nodes are safe so far. -/
theorem honest_step (hg : IsGroup cfg) (hP : ∀ i, NoCollisionsIn (cfg i).expected P)
    (hf : ∀ i A B, HashesOf P A → HashesOf P B → diffCount A B < (cfg i).fuel)
    (h : GRun cfg g who what len) (hs : Sane cfg (g len)) {n : Nat} (hn : n ≤ len)
    (hsafe : ∀ i, Full.Safe P (cfg i) (g n i)) {i : ι} {op : Full.Op} (ho : Honest cfg P (g n) i op) :
    ∃ s', Full.step (cfg i) (g n i) op = .ok s' ∧ Full.Safe P (cfg i) s' := by
  have hsub : ∀ p q, PublishedBy (g n) p q → P p q := fun p q ⟨j, hj⟩ => (hsafe j).made (p, q) hj
  refine Full.step_safe ⟨hg.wf i, hg.expected i, hP i, hf i⟩ (hsafe i) ?_ ?_ ho.numbers
  · intro int hop
    obtain ⟨j, nm, lt, hl, hname⟩ := ho.interests int hop
    have hok := okName_of_sent hg hP (h.reach hn j) (hsafe j).base.sourced hl i
    rcases hname with hname | ⟨v, k, hname⟩
    · left; rw [hname]; exact hok
    · right; rw [hname]; exact OkName.other hok v k
  · intro buf acts hop nm hnm
    obtain ⟨m, lt, segs, hl, hfe⟩ := ho.data buf acts hop
    have hsn := h.sane hs hn
    obtain ⟨j, k, e, he, _, rfl⟩ := fetched_reply hg hsn (fun i => h.reach hn i) hl hfe
    have hmem : e ∈ (g n j).replies := List.mem_of_getElem? he
    have hc := (h.sourced hg hs hn j).replies e hmem
    obtain ⟨content, _, _, _, hd, hk⟩ := carries_decode (c' := cfg i) (hg.wf j).content_lossless (hg.same j i).contentCodec
      (fun p q hpq => by obtain ⟨j', hj'⟩ := hpq; exact hsn.names j' _ hj') (hsn.buffers j e hmem).2 hc
    rw [Full.namesIn_eq, hd, Option.getD_some] at hnm
    obtain ⟨p, q, h1, h2, rfl⟩ := hk nm hnm
    exact ⟨p, q, hsub p q h1, announced_appendNumber p q h2⟩

/-- **C60**: In a group of nodes with the same parameters, in which every Interest delivered is one that a node
has sent (or one for a segment of a reply to it), every fetch completes with packets that nodes have sent, and
applications publish only numbers in `P`, a set among whose hashes there are no collisions, no event makes a node
throw, read out of bounds, fail an assertion or hang.  The applications may add and remove prefixes and publish as they like
within `P`, also from the update callback; Interests and replies may be lost, delayed, repeated and reordered. -/
theorem c60_never_fails (hg : IsGroup cfg) (hP : ∀ i, NoCollisionsIn (cfg i).expected P)
    (hf : ∀ i A B, HashesOf P A → HashesOf P B → diffCount A B < (cfg i).fuel)
    (h : GRun cfg g who what len) (hh : ∀ n < len, Honest cfg P (g n) (who n) (what n)) (hs : Sane cfg (g len))
    (i : ι) (op : Full.Op) (ho : Honest cfg P (g len) i op) : ∃ s', Full.step (cfg i) (g len i) op = .ok s' := by
  have hsafe : ∀ n, n ≤ len → ∀ i, Full.Safe P (cfg i) (g n i) := by
    intro n
    induction n with
    | zero => exact fun _ i => Full.init_safe (h.init i)
    | succ n ih =>
      intro hn i
      have hst := h.step n (by omega)
      by_cases hi : i = who n
      · subst hi
        obtain ⟨s', h1, h2⟩ := honest_step hg hP hf h hs (by omega) (ih (by omega)) (hh n (by omega))
        rw [hst.step, Res.ok.injEq] at h1
        rw [h1]; exact h2
      · rw [hst.others i hi]; exact ih (by omega) i
  obtain ⟨s', h1, _⟩ := honest_step hg hP hf h hs (le_refl _) (hsafe len (le_refl _)) ho
  exact ⟨s', h1⟩

end

/-! ### A concrete run -/

/-- An event that may happen at a node of the concrete group `ss`. -/
def honestAllB {k : Nat} (cfg : Fin k → Cfg) (ps : List (Name × Nat)) (ss : List Full) (e : GEv k) : Bool :=
  (match e.what with
    | .recvInterest int => ss.any (fun s => s.log.any (fun o => match o with
      | .interest n _ => decide (n = int.name) || decide (int.name.take n.length = n ∧ int.name.length = n.length + 2)
      | _ => false))
    | _ => true) &&
  honestB ss (gfun cfg ss e.who) e &&
  (numbersOf (cfg e.who) (gfun cfg ss e.who) e.what).all (fun x => decide (x ∈ ps))

theorem honestAll_sound {k : Nat} {cfg : Fin k → Cfg} {ps : List (Name × Nat)} {ss : List Full} (hl : ss.length = k)
    {e : GEv k} (h : honestAllB cfg ps ss e = true) :
    Honest cfg (fun p q => (p, q) ∈ ps) (gfun cfg ss) e.who e.what := by
  unfold honestAllB at h
  simp only [Bool.and_eq_true] at h
  obtain ⟨⟨h1, h2⟩, h3⟩ := h
  refine ⟨?_, ?_, ?_⟩
  · intro int hop
    rw [hop] at h1
    simp only [List.any_eq_true] at h1
    obtain ⟨s, hs, o, ho, hn⟩ := h1
    obtain ⟨i, hi⟩ := List.mem_iff_getElem?.mp hs
    have hik := (List.getElem?_eq_some_iff.mp hi).1
    cases o with
    | interest n lt =>
      refine ⟨⟨i, by omega⟩, n, lt, by simp only [gfun, hi, Option.getD_some]; exact ho, ?_⟩
      simp only [Bool.or_eq_true, decide_eq_true_eq] at hn
      rcases hn with hn | ⟨hn, hlen⟩
      · exact Or.inl hn.symm
      · right
        have hd : (int.name.drop n.length).length = 2 := by rw [List.length_drop]; omega
        obtain ⟨v, x, hvx⟩ := List.length_eq_two.mp hd
        exact ⟨v, x, by rw [← hvx]; conv => lhs; rw [← List.take_append_drop n.length int.name, hn]⟩
    | _ => simp at hn
  · intro buf acts hop
    unfold honestB at h2
    rw [hop] at h2
    simp only [Bool.and_eq_true, List.any_eq_true] at h2
    obtain ⟨⟨o, ho, h4⟩, h5⟩ := h2
    cases o with
    | interest n lt =>
      simp only [decide_eq_true_eq] at h4
      subst h4
      exact ⟨e.name, lt, e.segs, ho, fetched_of hl h5⟩
    | _ => simp at h4
  · intro x hx
    rw [List.all_eq_true] at h3
    simpa using h3 x hx

/-- A segment Interest for the reply of node 0. -/
def duoSegment : Interest := { emptyInterest with name := emptyInterest.name ++ [⟨54, [1]⟩, ⟨50, [0]⟩] }

/-- Three events, each of which may follow `duoEvents`. -/
def duoNext : List (GEv 2) :=
  [{ who := 1, what := .recvInterest duoSegment }, { who := 0, what := .call (.publishName pB (some 3)) },
   { who := 1, what := .complete duoReply1.content [.publishName pA (some 1), .removeUserNode pB],
     name := emptyInterest.name, base := emptyInterest.name ++ [⟨54, [2]⟩], segs := [duoReply1] }]

theorem duo_honest : (grun duoCfg duoEvents).map (fun sts =>
    ((List.range 8).all fun n => (duoEvents[n]?).all fun e => honestAllB duoCfg [(pA, 1), (pB, 3)] ((sts[n]?).getD []) e) &&
    (duoNext.all fun e => honestAllB duoCfg [(pA, 1), (pB, 3)] ((sts[8]?).getD []) e) &&
    decide ((sts.map List.length) = List.replicate 9 2) &&
    decide ((gat duoCfg sts 8 0).made = [(pA, 1)]) && decide ((gat duoCfg sts 8 1).made = [(pB, 3)]) &&
    decide ((gat duoCfg sts 8 0).replies = [(emptyInterest.name, duoReply0.content, 1000)]) &&
    decide ((gat duoCfg sts 8 1).replies = [(emptyInterest.name, duoReply1.content, 1000)]))
    = some true := by decide +kernel

/-- Non-vacuity for C60: the run `duoEvents` meets the hypotheses of `c60_never_fails`, and so do the events `duoNext`
after it: a segment Interest, a publication, and a completed fetch whose callback publishes and removes. -/
theorem c60_sample : ∃ (g : Nat → Fin 2 → Full) (who : Nat → Fin 2) (what : Nat → Full.Op) (P : Name → Nat → Prop),
    IsGroup duoCfg ∧ (∀ i, NoCollisionsIn (duoCfg i).expected P) ∧
    (∀ i A B, HashesOf P A → HashesOf P B → diffCount A B < (duoCfg i).fuel) ∧ GRun duoCfg g who what 8 ∧
    (∀ n < 8, Honest duoCfg P (g n) (who n) (what n)) ∧ Sane duoCfg (g 8) ∧
    ∀ e ∈ duoNext, Honest duoCfg P (g 8) e.who e.what := by
  obtain ⟨sts, h1, h2⟩ := Option.of_map duo_honest
  simp only [Bool.and_eq_true, decide_eq_true_eq, List.all_eq_true, List.mem_range] at h2
  obtain ⟨⟨⟨⟨⟨⟨hh, hx⟩, hl⟩, m0⟩, m1⟩, r0⟩, r1⟩ := h2
  have hlen : ∀ n, n < 9 → ((sts[n]?).getD []).length = 2 := by
    intro n hn
    have := congrArg (·[n]?) hl
    simp only [List.getElem?_map, List.getElem?_replicate, if_pos hn] at this
    cases hx : sts[n]? with
    | none => simp [hx] at this
    | some x => simpa [hx] using this
  refine ⟨gat duoCfg sts, gwho duoEvents 0, gwhat duoEvents, fun p q => (p, q) ∈ [(pA, 1), (pB, 3)], duoCfg_group,
    fun i => noCollisionsIn_two (ps := [(pA, 1), (pB, 3)]) (fun _ _ h => h) (by decide) (by decide +kernel) _,
    fun i A B hA hB => lt_of_le_of_lt (diffCount_two (ps := [(pA, 1), (pB, 3)]) (fun _ _ h => h) (by decide) A B hA hB)
      (by simp [duoCfg, sampleCfg]), grun_sound h1 0, ?_, ?_, ?_⟩
  · intro n hn
    have he : ∃ e, duoEvents[n]? = some e := ⟨_, List.getElem?_eq_getElem (by simpa [duoEvents] using hn)⟩
    obtain ⟨e, he⟩ := he
    have := hh n hn
    rw [he, Option.all_some] at this
    have h3 := honestAll_sound (hlen n (by omega)) this
    simp only [gwho, gwhat, he, Option.map_some, Option.getD_some]
    exact h3
  · refine sane_duo ?_ ?_ ?_ ?_ ?_ ?_
    · rw [m0]; intro e he; rw [List.mem_singleton.mp he]; exact nameOf_valid (by decide)
    · rw [m1]; intro e he; rw [List.mem_singleton.mp he]; exact nameOf_valid (by decide)
    · rw [r0]; intro e he; rw [List.mem_singleton.mp he]; decide
    · rw [r1]; intro e he; rw [List.mem_singleton.mp he]; decide
    · rw [r0]; decide
    · rw [r1]; decide
  · exact fun e he => honestAll_sound (hlen 8 (by decide)) (hx e he)

/-- So the two nodes survive these events. -/
example : ∃ (g : Nat → Fin 2 → Full), ∀ e ∈ duoNext, ∃ s', Full.step (duoCfg e.who) (g 8 e.who) e.what = .ok s' := by
  obtain ⟨g, who, what, P, h1, h2, h3, h4, h5, h6, h7⟩ := c60_sample
  exact ⟨g, fun e he => c60_never_fails h1 h2 h3 h4 h5 h6 e.who e.what (h7 e he)⟩

end PSync
