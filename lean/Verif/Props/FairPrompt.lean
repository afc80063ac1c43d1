import Verif.Proofs.FairPrompt
import Verif.Props.FairTimed
/-!
Property C81: a full-sync group converges within a bounded time.
-/
namespace PSync
open Spec

section
variable {ι : Type} {cfg : ι → Cfg} {g : Nat → ι → Full} {who : Nat → ι} {what : Nat → Full.Op} {len : Nat}

/-- C81, in rounds: as `c68_timed_partial`, but in a round a node need not complete a fetch from every other node.  It is
enough that all others receive its Interest, and that it fetches one of their replies if there are any. -/
theorem c81_rounds [Fintype ι] (hg : IsGroup cfg) (h : GRun cfg g who what len) (hs : Sane cfg (g len))
    (hrem : ∀ k < len, ∀ p, ¬ (what k).Removes p) (hnc : ∀ i, NoCollisionsIn (cfg i).expected (PublishedBy (g len)))
    (hsum : ∀ i, sumSeq (g len i).base.prefixes < 2 ^ 64) (hpos : ∀ p q, PublishedBy (g len) p q → q ≠ 0)
    (hfresh : ∀ i j, (cfg i).freshness = (cfg j).freshness)
    (δ : Nat) (hδ : ∀ i, 2 * δ + (cfg i).lag < 90) (hclock : ∀ n < len, (∀ t, what n ≠ .tick t) → ∀ i j, (g n i).now ≤ (g n j).now + δ)
    (t : Nat) (hstop : ∀ k, t ≤ k → k < len → ∀ p, ¬ (what k).Publishes p)
    (pubs : Finset (Name × Nat)) (hpubs : ∀ p q, PublishedBy (g t) p q → (p, q) ∈ pubs)
    (r : Nat → Nat) (rounds : Nat) (hfirst : t ≤ r 0)
    (hrounds : ∀ k < rounds, r k ≤ r (k + 1) ∧ ∀ i, Polls g who what i (r k) (r (k + 1)))
    (hlast : r rounds ≤ len) (hmany : 2 * (missing (g t) pubs).card + 1 < rounds) (i : ι) (p : Name) :
    (∀ j, numberOf (g t j) p ≤ numberOf (g len i) p) ∧
    (numberOf (g len i) p = 0 ∨ ∃ j, numberOf (g len i) p = numberOf (g t j) p) := by
  have hmono := steps_le (fun k hk => (hrounds k hk).1)
  have hle : ∀ k ≤ rounds, r k ≤ len := fun k hk => le_trans (hmono rounds (le_refl _) k hk) hlast
  have hge : ∀ k ≤ rounds, t ≤ r k := fun k hk => le_trans hfirst (hmono k hk 0 (Nat.zero_le _))
  obtain ⟨k, hk, hquiet⟩ := h.quietStretch hg hs hrem t hstop pubs hpubs (fun k => r (2 * k)) (rounds / 2) hfirst
    (fun k hk => hmono (2 * (k + 1)) (by omega) (2 * k) (by omega)) (hle _ (by omega)) (by omega)
  have e : 2 * (k + 1) = 2 * k + 1 + 1 := by omega
  rw [e] at hquiet
  refine h.converged hg hs hrem (le_trans (hge 0 (Nat.zero_le _)) (hle 0 (Nat.zero_le _))) hstop i (fun j => ?_) p
  refine covers_trans (h.covers hrem (hge (2 * k) (by omega)) (hle (2 * k) (by omega)) j)
    (covers_trans ?_ (h.covers hrem (hle (2 * k) (by omega)) (le_refl _) i))
  exact h.polledTwice hg hs hrem hnc hsum hpos hfresh (fun i => by have := hδ i; omega) hclock (hrounds (2 * k) (by omega)).1
    (hrounds (2 * k + 1) (by omega)).1 (hle (2 * k + 1 + 1) (by omega))
    (fun k' h1 h2 => hstop k' (le_trans (hge (2 * k) (by omega)) h1) (lt_of_lt_of_le h2 (hle _ (by omega)))) hquiet
    (hrounds (2 * k) (by omega)).2 (hrounds (2 * k + 1) (by omega)).2 j i

/-- C81: nobody publishes after `t` events, when no clock shows more than `X`, and from then on packets take at most `Δ` ms.
All nodes use the same syncReplyFreshness, and their clocks never differ by more than `δ` ms, which is less than 45 (or
45 minus half of the time timers may be late).  When all clocks show more than `X + (2 * x + 2) * (2 * W + Δ + δ)`, where
`x` is the number of publications some node had not heard of (counted per node) and `W` is at least
lifetime/2 + syncReplyFreshness + 1000 ms plus twice the time timers may be late, every node holds, for every prefix, the largest
number any node held at `t`. -/
theorem c81_time [Fintype ι] (hg : IsGroup cfg) (h : GRun cfg g who what len) (hs : Sane cfg (g len))
    (hrem : ∀ k < len, ∀ p, ¬ (what k).Removes p) (hnc : ∀ i, NoCollisionsIn (cfg i).expected (PublishedBy (g len)))
    (hsum : ∀ i, sumSeq (g len i).base.prefixes < 2 ^ 64) (hpos : ∀ p q, PublishedBy (g len) p q → q ≠ 0)
    (hfresh : ∀ i j, (cfg i).freshness = (cfg j).freshness)
    (δ : Nat) (hδ : ∀ i, 2 * δ + (cfg i).lag < 90) (hclock : ∀ n < len, (∀ t, what n ≠ .tick t) → ∀ i j, (g n i).now ≤ (g n j).now + δ)
    (t : Nat) (ht : t ≤ len) (hstop : ∀ k, t ≤ k → k < len → ∀ p, ¬ (what k).Publishes p)
    (pubs : Finset (Name × Nat)) (hpubs : ∀ p q, PublishedBy (g t) p q → (p, q) ∈ pubs)
    (Δ : Nat) (hprompt : Prompt Δ g who what t len)
    (W : Nat) (hW : ∀ i, (cfg i).lifetime / 2 + (cfg i).freshness + 1000 + 2 * (cfg i).lag ≤ W)
    (X : Nat) (hX : ∀ i, (g t i).now ≤ X)
    (hlong : ∀ i, X + (2 * (missing (g t) pubs).card + 2) * (2 * W + Δ + δ) < (g len i).now) (i : ι) (p : Name) :
    (∀ j, numberOf (g t j) p ≤ numberOf (g len i) p) ∧
    (numberOf (g len i) p = 0 ∨ ∃ j, numberOf (g len i) p = numberOf (g t j) p) := by
  obtain ⟨r, h0, h1, h2, _⟩ := h.roundsWithin hg hW hclock hprompt ht hX _ hlong
  exact c81_rounds hg h hs hrem hnc hsum hpos hfresh δ hδ hclock t hstop pubs hpubs r _ (by omega) h1 h2 (by omega) i p

end

/-! ### Sample run -/

/-- As `duoCfg`, with a lifetime of ten seconds. -/
def promptCfg (i : Fin 2) : Cfg := { duoCfg i with lifetime := 10000 }

/-- Interests among the output. -/
def asksIn (l : List Out) : List Name := l.filterMap (fun o => match o with | .interest n _ => some n | _ => none)

/-- What follows when node `i` has sent something: the other one receives the Interest, and its reply is fetched. -/
def promptReact (cfg : Fin 2 → Cfg) (i : Fin 2) (old new : List Full) : Nat → List (GEv 2)
  | 0 => []
  | fuel + 1 =>
    match asksIn (newOutput (gfun cfg old i) (gfun cfg new i)) with
    | [] => []
    | n :: _ =>
      let e : GEv 2 := { who := 1 - i, what := .recvInterest ⟨n, 10000, 7⟩ }
      let next := (gstep cfg new e).getD new
      match dataOf (newOutput (gfun cfg new (1 - i)) (gfun cfg next (1 - i))) with
      | [] => [e]
      | d :: _ =>
        let e' : GEv 2 := { who := i, what := .complete d.content [], name := n, base := List.dropLast d.name, segs := [d] }
        e :: e' :: promptReact cfg i next ((gstep cfg next e').getD next) fuel

/-- The clocks move to `t`, all timers run, and packets take no time. -/
def promptEvents (cfg : Fin 2 → Cfg) (t : Nat) : Nat → List Full → List (GEv 2)
  | 0, _ => []
  | fuel + 1, ss =>
    let go := fun d => [{ who := 0, what := .tick d }, { who := 1, what := .tick d }]
    match firstDue (dueOf 0 (gfun cfg ss 0) ++ dueOf 1 (gfun cfg ss 1)) with
    | some (d, e) =>
      if d ≤ t then
        let ss1 := (go d).foldl (fun ss e => (gstep cfg ss e).getD ss) ss
        let ss2 := (gstep cfg ss1 e).getD ss1
        let es : List (GEv 2) := promptReact cfg e.who ss1 ss2 5
        go d ++ e :: es ++ promptEvents cfg t fuel (es.foldl (fun ss e => (gstep cfg ss e).getD ss) ss2)
      else go t
    | none => go t

/-- The start of `lostActs`: an old reply to the Interest of node 1 is in the store of node 0.  Then everything is prompt. -/
def promptList : List (GEv 2) :=
  let es := gdriveAll promptCfg (lostActs.take 9)
  es ++ promptEvents promptCfg 57000 400 (((grun promptCfg es).bind List.getLast?).getD [])

/-- In the concrete run, packets take no time from event `t` on: the event after the one that sends an Interest is its
reception, and the one after that the completion of a fetch, if there is a reply. -/
def promptB (cfg : Fin 2 → Cfg) (sts : List (List Full)) (es : List (GEv 2)) (t : Nat) : Bool :=
  (List.range es.length).all (fun k => decide (k < t) || [(0 : Fin 2), 1].all (fun i =>
    (newOutput (gat cfg sts k i) (gat cfg sts (k + 1) i)).all (fun o => match o with
      | .interest n _ => decide (k + 2 < es.length) && decide (gwho es 0 (k + 1) = 1 - i) &&
          (match gwhat es (k + 1) with | .recvInterest int => decide (int.name = n) | _ => false) &&
          decide ((gat cfg sts (k + 1) (1 - i)).now ≤ (gat cfg sts k i).now) &&
          (match dataOf (newOutput (gat cfg sts (k + 1) (1 - i)) (gat cfg sts (k + 2) (1 - i))) with
            | [] => true
            | d :: _ => completesB cfg sts es i d (k + 2) && decide ((gat cfg sts (k + 2) i).now ≤ (gat cfg sts k i).now))
      | _ => true)))

theorem mem_dataOf_iff {d : Data} : ∀ {l : List Out}, d ∈ dataOf l ↔ Out.data d ∈ l
  | [] => by simp [dataOf]
  | o :: l => by cases o <;> simp [dataOf, mem_dataOf_iff (l := l)]

theorem prompt_of {cfg : Fin 2 → Cfg} {sts : List (List Full)} {es : List (GEv 2)} {t : Nat} (h : promptB cfg sts es t = true) :
    Prompt 0 (gat cfg sts) (gwho es 0) (gwhat es) t es.length := by
  intro k i n lt htk hk hout _
  unfold promptB at h
  rw [List.all_eq_true] at h
  have h1 := h k (List.mem_range.mpr hk)
  simp only [Bool.or_eq_true, decide_eq_true_eq, show ¬ k < t by omega, false_or, List.all_eq_true] at h1
  have h2 := h1 i (by match i with | 0 => simp | 1 => simp) _ hout
  simp only [Bool.and_eq_true, decide_eq_true_eq] at h2
  obtain ⟨⟨⟨⟨h3, h4⟩, h5⟩, h6⟩, h7⟩ := h2
  split at h5
  · rename_i int hint
    have other := (by decide : ∀ i j : Fin 2, j ≠ i → j = 1 - i) i
    have other' := (by decide : ∀ i : Fin 2, 1 - i ≠ i) i
    refine ⟨fun _ => k + 1, fun _ => int, fun j hj => ?_, fun ⟨j, d, hj, hd⟩ => ?_⟩
    · obtain rfl := other j hj
      exact ⟨Nat.lt_succ_self k, show k + 1 < _ by omega, h4, hint, by simpa using h5, by omega⟩
    · obtain rfl := other j hj
      split at h7
      · rename_i h8
        rw [← mem_dataOf_iff, h8] at hd
        simp at hd
      · rename_i d' l h8
        simp only [Bool.and_eq_true, decide_eq_true_eq] at h7
        exact ⟨1 - i, d', k + 2, other', mem_dataOf_iff.mp (by rw [h8]; simp), Nat.lt_succ_self _, h3, completes_of h7.1, by omega⟩
  · simp at h5

theorem prompt_run : (grun promptCfg promptList).map (fun sts =>
    decide ((gat promptCfg sts 125 0).made = [(pA, 1), (pB, 1)]) && decide ((gat promptCfg sts 125 1).made = [(pA, 3)]) &&
    decide (((gat promptCfg sts 125 0).replies.map (·.2.1.length)).all (· < 1000)) &&
    decide (((gat promptCfg sts 125 1).replies.map (·.2.1.length)).all (· < 1000)) &&
    decide ((gat promptCfg sts 125 0).replies.length < 1000) && decide ((gat promptCfg sts 125 1).replies.length < 1000) &&
    promptB promptCfg sts promptList 11 &&
    decide (sumSeq (gat promptCfg sts 125 0).base.prefixes = 4) && decide (sumSeq (gat promptCfg sts 125 1).base.prefixes = 4) &&
    clocksB promptCfg sts promptList &&
    decide ((missing (gat promptCfg sts 11) {(pA, 1), (pA, 3), (pB, 1)}).card = 1) &&
    decide ((gat promptCfg sts 11 0).now = 600) && decide ((gat promptCfg sts 11 1).now = 600) &&
    decide ((gat promptCfg sts 125 0).now = 57000) && decide ((gat promptCfg sts 125 1).now = 57000) &&
    decide (numberOf (gat promptCfg sts 11 1) pB = 0) && decide (numberOf (gat promptCfg sts 125 1) pB = 1))
    = some true := by decide +kernel

theorem prompt_shape : (promptList.length = 125 ∧ (promptList.drop 11).all noPublicationB = true ∧
    promptList.all noRemovalB = true) := by decide +kernel

set_option maxRecDepth 4000 in
/-- Non-vacuity for C81: node 1 lacks /b/1 when packets begin to be prompt, and has it at the end. -/
theorem c81_sample : ∃ (g : Nat → Fin 2 → Full) (who : Nat → Fin 2) (what : Nat → Full.Op),
    IsGroup promptCfg ∧ GRun promptCfg g who what 125 ∧ Sane promptCfg (g 125) ∧ (∀ k < 125, ∀ p, ¬ (what k).Removes p) ∧
    (∀ i, NoCollisionsIn (promptCfg i).expected (PublishedBy (g 125))) ∧
    (∀ i, sumSeq (g 125 i).base.prefixes < 2 ^ 64) ∧ (∀ p q, PublishedBy (g 125) p q → q ≠ 0) ∧
    (∀ i j, (promptCfg i).freshness = (promptCfg j).freshness) ∧
    (∀ i, 2 * 0 + (promptCfg i).lag < 90) ∧
    (∀ n < 125, (∀ t, what n ≠ .tick t) → ∀ i j, (g n i).now ≤ (g n j).now + 0) ∧
    (∀ k, 11 ≤ k → k < 125 → ∀ p, ¬ (what k).Publishes p) ∧
    (∀ p q, PublishedBy (g 11) p q → (p, q) ∈ ({(pA, 1), (pA, 3), (pB, 1)} : Finset (Name × Nat))) ∧
    Prompt 0 g who what 11 125 ∧
    (∀ i, (promptCfg i).lifetime / 2 + (promptCfg i).freshness + 1000 + 2 * (promptCfg i).lag ≤ 7000) ∧
    (∀ i, (g 11 i).now ≤ 600) ∧
    (∀ i, 600 + (2 * (missing (g 11) {(pA, 1), (pA, 3), (pB, 1)}).card + 2) * (2 * 7000 + 0 + 0) < (g 125 i).now) ∧
    numberOf (g 11 1) pB = 0 ∧ numberOf (g 125 1) pB = 1 := by
  obtain ⟨sts, h1, h2⟩ := Option.of_map prompt_run
  simp only [Bool.and_eq_true, decide_eq_true_eq] at h2
  obtain ⟨⟨⟨⟨⟨⟨⟨⟨⟨⟨⟨⟨⟨⟨⟨⟨m0, m1⟩, s0⟩, s1⟩, l0⟩, l1⟩, hpr⟩, u0⟩, u1⟩, hc⟩, hm⟩, c0⟩, c1⟩, d0⟩, d1⟩, n11⟩, n125⟩ := h2
  obtain ⟨hl, hp, hr⟩ := prompt_shape
  have hrun := grun_sound h1 0
  have hclock := clocks_of hc
  have hprompt := prompt_of hpr
  rw [hl] at hrun hclock hprompt
  have hpub : ∀ n ≤ 125, ∀ p q, PublishedBy (gat promptCfg sts n) p q → (p, q) ∈ [(pA, 1), (pA, 3), (pB, 1)] := by
    intro n hn p q hpq
    obtain ⟨j, hj⟩ := hrun.published hn (le_refl _) hpq
    match j with
    | 0 => rw [m0] at hj; simp at hj ⊢; tauto
    | 1 => rw [m1] at hj; simp at hj ⊢; tauto
  have hsane : Sane duoCfg (gat promptCfg sts 125) := by
    refine sane_duo (made_valid ?_) (made_valid ?_) (short_of s0) (short_of s1) l0 l1
    · rw [m0]; simp
    · rw [m1]; simp
  refine ⟨gat promptCfg sts, gwho promptList 0, gwhat promptList,
    ⟨fun _ _ => ⟨rfl, rfl, rfl, rfl⟩, fun i => ⟨(duoCfg_group.wf i).jitter_lo, (duoCfg_group.wf i).jitter_hi,
      none_lossless, none_lossless⟩, fun i => duoCfg_group.expected i⟩,
    hrun, ⟨⟨hsane.names, hsane.buffers, hsane.version_lt⟩, hsane.versions⟩, fun k _ p => no_removal hr k p,
    fun i => noCollisionsIn_list (hpub 125 (le_refl _)) (by decide) (by decide +kernel) (by decide +kernel) _, ?_, ?_,
    fun _ _ => rfl, by decide, hclock, fun k h4 _ p => no_publication hp k h4 p, ?_, hprompt, by decide, ?_, ?_, n11, n125⟩
  · exact fin2_forall.mpr ⟨by rw [u0]; decide, by rw [u1]; decide⟩
  · intro p q hpq
    have := hpub 125 (le_refl _) p q hpq
    simp at this
    omega
  · intro p q hpq
    simpa using hpub 11 (by decide) p q hpq
  · exact fin2_forall.mpr ⟨by rw [c0], by rw [c1]⟩
  · rw [hm]; exact fin2_forall.mpr ⟨by rw [d0]; decide, by rw [d1]; decide⟩

end PSync
