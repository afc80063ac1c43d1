import Verif.Proofs.Fair
import Verif.Props.Group
/-!
Property C66: rounds in which every node asks every other one bring all nodes up to date.
-/
namespace PSync
open Spec

section
variable {ι : Type} {cfg : ι → Cfg} {g : Nat → ι → Full} {who : Nat → ι} {what : Nat → Full.Op} {len : Nat}

/-- The publications in `pubs` that some node has not heard of. -/
def Spec.missing [Fintype ι] (s : ι → Full) (pubs : Finset (Name × Nat)) : Finset (ι × (Name × Nat)) :=
  (Finset.univ ×ˢ pubs).filter (fun x => numberOf (s x.1) x.2.1 < x.2.2)

theorem numberOf_covers {s s' : Full} (h : Covers s.base.getSeqNo s'.base.getSeqNo) (p : Name) :
    numberOf s p ≤ numberOf s' p := by
  unfold numberOf
  cases hj : s.base.getSeqNo p with
  | none => simp
  | some x =>
    by_cases hx : x = 0
    · simp [hx]
    · obtain ⟨y, hy, hle⟩ := h p x hj hx
      rw [hy]; simpa using hle

theorem steps_le {r : Nat → Nat} {rounds : Nat} (hord : ∀ k < rounds, r k ≤ r (k + 1)) : ∀ k ≤ rounds, ∀ k' ≤ k, r k' ≤ r k := by
  intro k hk k' hk'
  induction k, hk' using Nat.le_induction with
  | base => exact le_refl _
  | succ k hk' ih => exact le_trans (ih (by omega)) (hord k (by omega))

/-- Among more stretches than publications some node has not heard of, there is one in which no number changes. -/
theorem Spec.GRun.quietStretch [Fintype ι] (hg : IsGroup cfg) (h : GRun cfg g who what len) (hs : Sane cfg (g len))
    (hrem : ∀ k < len, ∀ p, ¬ (what k).Removes p)
    (t : Nat) (hstop : ∀ k, t ≤ k → k < len → ∀ p, ¬ (what k).Publishes p)
    (pubs : Finset (Name × Nat)) (hpubs : ∀ p q, PublishedBy (g t) p q → (p, q) ∈ pubs)
    (r : Nat → Nat) (rounds : Nat) (hfirst : t ≤ r 0) (hord : ∀ k < rounds, r k ≤ r (k + 1))
    (hlast : r rounds ≤ len) (hmany : (missing (g t) pubs).card < rounds) :
    ∃ k < rounds, ∀ i, Covers (g (r (k + 1)) i).base.getSeqNo (g (r k) i).base.getSeqNo := by
  have hmono := steps_le hord
  have hle : ∀ k ≤ rounds, r k ≤ len := fun k hk => le_trans (hmono rounds (le_refl _) k hk) hlast
  have hge : ∀ k ≤ rounds, t ≤ r k := fun k hk => le_trans hfirst (hmono k hk 0 (Nat.zero_le _))
  have hsub : ∀ {m n : Nat}, m ≤ n → n ≤ len → missing (g n) pubs ⊆ missing (g m) pubs := by
    intro m n hmn hn x hx
    simp only [missing, Finset.mem_filter] at hx ⊢
    exact ⟨hx.1, lt_of_le_of_lt (numberOf_covers (h.covers hrem hmn hn x.1) _) hx.2⟩
  -- a round in which something changes leaves fewer publications missing
  have hstrict : ∀ k < rounds, ¬ (∀ i, Covers (g (r (k + 1)) i).base.getSeqNo (g (r k) i).base.getSeqNo) →
      (missing (g (r (k + 1))) pubs).card < (missing (g (r k)) pubs).card := by
    intro k hk hch
    refine Finset.card_lt_card ((Finset.ssubset_iff_of_subset (hsub (hord k hk) (hle _ hk))).mpr ?_)
    simp only [Covers, not_forall] at hch
    obtain ⟨i, p, x, hp, hx, hno⟩ := hch
    obtain ⟨j, hj⟩ := (c56_no_invention_partial hg h hs (r (k + 1)) (hle _ hk) i).1 p x hp hx
    have hj' : (p, x) ∈ (g t j).made := by
      have := (h.span (hge (k + 1) hk) (hle (k + 1) hk) j).noPublish
        (by rintro p q ⟨k', h1, h2, h3⟩; exact hstop k' h1 (lt_of_lt_of_le h2 (hle _ hk)) p h3)
      simp only [Full.view] at this
      rw [← this]; exact hj
    refine ⟨(i, (p, x)), ?_, ?_⟩
    · simp only [missing, Finset.mem_filter, Finset.mem_product, Finset.mem_univ, true_and]
      refine ⟨hpubs p x ⟨j, hj'⟩, ?_⟩
      by_contra hcon
      refine hno ?_
      unfold numberOf at hcon
      cases hy : (g (r k) i).base.getSeqNo p with
      | none => rw [hy] at hcon; simp at hcon; exact absurd hcon hx
      | some y => rw [hy] at hcon; exact ⟨y, rfl, by simpa using hcon⟩
    · rw [missing, Finset.mem_filter]
      rintro ⟨_, hlt⟩
      simp only [numberOf, hp, Option.getD_some] at hlt
      omega
  by_contra hcon
  have : ∀ k ≤ rounds, (missing (g (r k)) pubs).card + k ≤ (missing (g t) pubs).card := by
    intro k hk
    induction k with
    | zero => exact Finset.card_le_card (hsub hfirst (hle 0 (Nat.zero_le _)))
    | succ k ih =>
      have h1 := ih (by omega)
      have h2 := hstrict k (by omega) (fun hq => hcon ⟨k, by omega, hq⟩)
      omega
  have := this rounds (le_refl _)
  omega

/-- C66, partial: nobody publishes after `t` events, and after that there are more rounds than publications some node
has not heard of (counted per node).  Then every node holds, for every prefix, the largest number any node held
at `t` - whether or not the differences between the tables decode.
(Missing: rounds at whose start the asked node already had a reply to the Interest in its segment store, for which the
claim is false, `c66_false`; runs with
removals, hash collisions, two replies of the same version, or numbers that add up to 2^64 or more; a bound on the
number of rounds by fewer than the missing publications.) -/
theorem c66_rounds_partial [Fintype ι] (hg : IsGroup cfg) (h : GRun cfg g who what len) (hs : Sane cfg (g len))
    (hrem : ∀ k < len, ∀ p, ¬ (what k).Removes p) (hnc : ∀ i, NoCollisionsIn (cfg i).expected (PublishedBy (g len)))
    (hsum : ∀ i, sumSeq (g len i).base.prefixes < 2 ^ 64)
    (t : Nat) (hstop : ∀ k, t ≤ k → k < len → ∀ p, ¬ (what k).Publishes p)
    (pubs : Finset (Name × Nat)) (hpubs : ∀ p q, PublishedBy (g t) p q → (p, q) ∈ pubs)
    (r : Nat → Nat) (rounds : Nat) (hfirst : t ≤ r 0) (hrounds : ∀ k < rounds, Round NotStored g who what (r k) (r (k + 1)))
    (hlast : r rounds ≤ len) (hmany : (missing (g t) pubs).card < rounds) (i : ι) (p : Name) :
    (∀ j, numberOf (g t j) p ≤ numberOf (g len i) p) ∧
    (numberOf (g len i) p = 0 ∨ ∃ j, numberOf (g len i) p = numberOf (g t j) p) := by
  have hmono := steps_le (fun k hk => (hrounds k hk).order)
  have hle : ∀ k ≤ rounds, r k ≤ len := fun k hk => le_trans (hmono rounds (le_refl _) k hk) hlast
  have hge : ∀ k ≤ rounds, t ≤ r k := fun k hk => le_trans hfirst (hmono k hk 0 (Nat.zero_le _))
  obtain ⟨k, hk, hquiet⟩ := h.quietStretch hg hs hrem t hstop pubs hpubs r rounds hfirst (fun k hk => (hrounds k hk).order) hlast hmany
  refine h.converged hg hs hrem (le_trans (hge 0 (Nat.zero_le _)) (hle 0 (Nat.zero_le _))) hstop i (fun j => ?_) p
  exact covers_trans (h.covers hrem (hge k hk.le) (hle k hk.le) j)
    (covers_trans (h.quietRound hg hs hrem hnc hsum (hle _ hk)
      (fun k' h1 h2 => hstop k' (le_trans (hge k hk.le) h1) (lt_of_lt_of_le h2 (hle _ hk))) hquiet (hrounds k hk) j i)
      (h.covers hrem (hle k hk.le) (le_refl _) i))

end

/-! ### Sample runs -/

/-- What a sample run is made of: a call; the clocks move to `t`, and due timers of the stores and of parked
Interests run; the clocks move to `t`, and all timers run when they are due; the sync timer, or the timer for waiting Interests, of `i` runs; `j` receives the last Interest of `i`, and if it answers, the fetch of `i`
completes; or the answer is lost. -/
inductive GAct where
  | call (i : Fin 2) (c : Full.Call)
  | clock (t : Nat)
  | wait (t : Nat)
  | fire (i : Fin 2)
  | delay (i : Fin 2)
  | ask (j i : Fin 2)
  | hear (j i : Fin 2)

/-- The name of the last Interest sent. -/
def lastAsked (s : Full) : Name :=
  s.log.foldl (fun n o => match o with | .interest n' _ => n' | _ => n) []

/-- The timers of a node. -/
def dueOf (i : Fin 2) (s : Full) : List (Nat × GEv 2) :=
  (s.sched.toList.map (fun x => (x.1, ⟨i, .fireSync, [], [], []⟩))) ++
  (s.delayTimer.toList.map (fun x => (x, ⟨i, .fireDelay, [], [], []⟩))) ++
  (s.pending.map (fun e => (e.2.deadline, ⟨i, .expire e.1, [], [], []⟩))) ++
  (s.pub.timers.map (fun e => (e.1, ⟨i, .fireStore, [], [], []⟩)))

/-- The first timer. -/
def firstDue (l : List (Nat × GEv 2)) : Option (Nat × GEv 2) :=
  l.foldl (fun b x => match b with | none => some x | some y => if x.1 < y.1 then some x else some y) none

/-- The clocks move to `t`, and all timers run. -/
def waitEvents (cfg : Fin 2 → Cfg) (t : Nat) : Nat → List Full → List (GEv 2)
  | 0, _ => []
  | fuel + 1, ss =>
    let go := fun d => [{ who := 0, what := .tick d }, { who := 1, what := .tick d }]
    match firstDue (dueOf 0 (gfun cfg ss 0) ++ dueOf 1 (gfun cfg ss 1)) with
    | some (d, e) =>
      if d ≤ t then
        let es : List (GEv 2) := go d ++ [e]
        es ++ waitEvents cfg t fuel (es.foldl (fun ss e => (gstep cfg ss e).getD ss) ss)
      else go t
    | none => go t

/-- The events of one item, given the states of the two nodes. -/
def GAct.events (cfg : Fin 2 → Cfg) (ss : List Full) : GAct → List (GEv 2)
  | .call i c => [{ who := i, what := .call c }]
  | .clock t =>
    [{ who := 0, what := .tick t }, { who := 1, what := .tick t }, { who := 0, what := .fireStore }, { who := 1, what := .fireStore }] ++
      (gfun cfg ss 0).pending.map (fun e => { who := 0, what := .expire e.1 }) ++
      (gfun cfg ss 1).pending.map (fun e => { who := 1, what := .expire e.1 })
  | .wait t => waitEvents cfg t 100 ss
  | .hear j i => [{ who := j, what := .recvInterest ⟨lastAsked (gfun cfg ss i), 1000, 7⟩ }]
  | .fire i => [{ who := i, what := .fireSync }]
  | .delay i => [{ who := i, what := .fireDelay }]
  | .ask j i =>
    let n := lastAsked (gfun cfg ss i)
    let int : Interest := ⟨n, 1000, 7⟩
    let s := gfun cfg ss j
    match Full.step (cfg j) s (.recvInterest int) with
    | .ok s' =>
      { who := j, what := .recvInterest int } ::
        match dataOf (newOutput s s') with
        | d :: _ => [{ who := i, what := .complete d.content [], name := n, base := List.dropLast d.name, segs := [d] }]
        | [] => []
    | _ => []

/-- The events of a sample run. -/
def gdrive (cfg : Fin 2 → Cfg) : List Full → List GAct → List (GEv 2)
  | _, [] => []
  | ss, a :: as =>
    let es := a.events cfg ss
    es ++ gdrive cfg (es.foldl (fun ss e => (gstep cfg ss e).getD ss) ss) as

def gdriveAll (cfg : Fin 2 → Cfg) (as : List GAct) : List (GEv 2) :=
  gdrive cfg ((allGet ((List.finRange 2).map (fun i => Full.init (cfg i)))).getD []) as

/-- Node 0 publishes /a/1 and /b/3; then there are three rounds. -/
def fairActs : List GAct :=
  [.call 0 (.addUserNode pA), .call 0 (.publishName pA (some 1)), .call 0 (.addUserNode pB), .call 0 (.publishName pB (some 3)),
   .clock 600, .fire 0, .fire 1, .ask 0 1, .ask 1 0,
   .clock 610, .clock 700, .fire 1, .ask 0 1, .clock 1201, .fire 0, .ask 1 0,
   .clock 1301, .fire 1, .ask 0 1, .clock 1801, .fire 0, .ask 1 0]

/-- As `duoCfg`, with an IBF of three cells. -/
def tinyCfg (i : Fin 2) : Cfg := { duoCfg i with expected := 1 }

/-- Node 0 has answered an Interest of node 1 with the useless /a/1 when it publishes /b/1.  In each of the three
rounds that follow, it answers the same Interest with the same reply from its store. -/
def staleActs : List GAct :=
  [.call 0 (.addUserNode pA), .call 0 (.publishName pA (some 1)), .call 0 (.addUserNode pB),
   .call 1 (.addUserNode pA), .call 1 (.publishName pA (some 3)), .clock 600, .fire 1, .ask 0 1, .call 0 (.publishName pB (some 1)),
   .fire 0, .clock 1201, .fire 0, .clock 1700, .fire 1, .ask 0 1, .ask 1 0,
   .clock 1801, .fire 0, .clock 2401, .fire 0, .clock 2700, .clock 2800, .fire 1, .ask 0 1, .ask 1 0,
   .clock 2901, .delay 1, .clock 3001, .delay 1,  .clock 3002, .fire 0, .clock 3602, .fire 0, .clock 3900, .fire 1, .ask 0 1, .ask 1 0]

/-- As `duoCfg`, with a syncReplyFreshness of a minute at node 0. -/
def slowCfg (i : Fin 2) : Cfg := { duoCfg i with freshness := if i = 0 then 60000 else 1000 }

/-- In the concrete run, the fetch of event `b` starts with `d`. -/
def completesB (cfg : Fin 2 → Cfg) (sts : List (List Full)) (es : List (GEv 2)) (i : Fin 2) (d : Data) (b : Nat) : Bool :=
  match es[b]? with
  | some e =>
    match e.what with
    | .complete buf _ => decide (e.who = i) && ((gat cfg sts b i).fetcher).any (·.active) && decide (e.segs[0]? = some d) &&
        (gat cfg sts b i).log.any (fun o => match o with | .interest n _ => decide (n = e.name) | _ => false) &&
        fetchedB ((sts[b]?).getD []) e.name e.base e.segs buf && decide (((sts[b]?).getD []).length = 2)
    | _ => false
  | none => false

theorem completes_of {cfg : Fin 2 → Cfg} {sts : List (List Full)} {es : List (GEv 2)} {i x : Fin 2} {d : Data} {b : Nat}
    (h : completesB cfg sts es i d b = true) : Completes (gat cfg sts) (gwho es x) (gwhat es) i d b := by
  unfold completesB at h
  split at h
  · rename_i e he
    split at h
    · rename_i buf acts hw
      simp only [Bool.and_eq_true, decide_eq_true_eq, List.any_eq_true, Option.any_eq_true] at h
      obtain ⟨⟨⟨⟨⟨h1, h2⟩, h3⟩, o, h4, h4'⟩, h5⟩, h6⟩ := h
      cases o with
      | interest n lt =>
        simp only [decide_eq_true_eq] at h4'
        subst h4'
        exact ⟨by simp [gwho, he, h1], h2, e.name, lt, e.segs, buf, acts, h4, fetched_of h6 h5, h3, by simp [gwhat, he, hw]⟩
      | _ => simp at h4'
    · simp at h
  · simp at h

/-- In the concrete run, `j` serves `i` between `m` and `n`, with events `k` and `a`. -/
def servedB (ok : Full → Name → Bool) (cfg : Fin 2 → Cfg) (sts : List (List Full)) (es : List (GEv 2)) (j i : Fin 2)
    (m n k a : Nat) : Bool :=
  decide (m ≤ k) && decide (k < a) && decide (a < n) &&
  match es[a]? with
  | some e =>
    match e.what with
    | .recvInterest int => decide (e.who = j) &&
      (newOutput (gat cfg sts k i) (gat cfg sts (k + 1) i)).any
        (fun o => match o with | .interest n _ => decide (n = int.name) | _ => false) &&
      ok (gat cfg sts m j) int.name &&
      (newOutput (gat cfg sts a j) (gat cfg sts (a + 1) j)).all (fun o => match o with
        | .data d => (List.range n).any (fun b => decide (a < b) && completesB cfg sts es i d b)
        | _ => true)
    | _ => false
  | none => false

theorem served_of {ok : Full → Name → Bool} {cfg : Fin 2 → Cfg} {sts : List (List Full)} {es : List (GEv 2)} {j i x : Fin 2}
    {m n k a : Nat} (h : servedB ok cfg sts es j i m n k a = true) :
    Serves (fun s n => ok s n = true) (gat cfg sts) (gwho es x) (gwhat es) j i m n := by
  unfold servedB at h
  simp only [Bool.and_eq_true, decide_eq_true_eq] at h
  obtain ⟨⟨⟨h1, h2⟩, h3⟩, h⟩ := h
  split at h
  · rename_i e he
    split at h
    · rename_i int hw
      simp only [Bool.and_eq_true, decide_eq_true_eq, List.any_eq_true, List.all_eq_true] at h
      obtain ⟨⟨⟨h4, o, h5, h5'⟩, h6⟩, h7⟩ := h
      cases o with
      | interest n' lt =>
        simp only [decide_eq_true_eq] at h5'
        subst h5'
        refine ⟨k, a, int, lt, h1, h2, h3, h5, by simp [gwho, he, h4], by simp [gwhat, he, hw], h6, fun d hd => ?_⟩
        have := h7 _ hd
        simp only [List.any_eq_true, List.mem_range, Bool.and_eq_true, decide_eq_true_eq] at this
        obtain ⟨b, h8, h9, h10⟩ := this
        exact ⟨b, h9, h8, completes_of h10⟩
      | _ => simp at h5'
    · simp at h
  · simp at h

/-- A round of the concrete run: its limits and the events `k` and `a` of both directions. -/
def roundB (ok : Full → Name → Bool) (cfg : Fin 2 → Cfg) (sts : List (List Full)) (es : List (GEv 2)) (m n k a k' a' : Nat) : Bool :=
  decide (m ≤ n) && servedB ok cfg sts es 0 1 m n k a && servedB ok cfg sts es 1 0 m n k' a'

theorem round_of {ok : Full → Name → Bool} {cfg : Fin 2 → Cfg} {sts : List (List Full)} {es : List (GEv 2)} {x : Fin 2}
    {m n k a k' a' : Nat} (h : roundB ok cfg sts es m n k a k' a' = true) :
    Round (fun s n => ok s n = true) (gat cfg sts) (gwho es x) (gwhat es) m n := by
  unfold roundB at h
  simp only [Bool.and_eq_true, decide_eq_true_eq] at h
  refine ⟨h.1.1, fun j i hji => ?_⟩
  match j, i with
  | 0, 0 => exact absurd rfl hji
  | 1, 1 => exact absurd rfl hji
  | 0, 1 => exact served_of h.1.2
  | 1, 0 => exact served_of h.2

def notStoredB (s : Full) (n : Name) : Bool := (s.pub.replyFromStore n).isNone


def fairEvents : List (GEv 2) := gdriveAll tinyCfg fairActs

theorem fair_run : (grun tinyCfg fairEvents).map (fun sts =>
    decide ((gat tinyCfg sts 49 0).made = [(pA, 1), (pB, 3)]) && decide ((gat tinyCfg sts 49 1).made = []) &&
    decide (((gat tinyCfg sts 49 0).replies.map (·.2.1.length)).all (· < 1000)) &&
    decide (((gat tinyCfg sts 49 1).replies.map (·.2.1.length)).all (· < 1000)) &&
    decide ((gat tinyCfg sts 49 0).replies.length < 1000) && decide ((gat tinyCfg sts 49 1).replies.length < 1000) &&
    roundB notStoredB tinyCfg sts fairEvents 4 13 9 10 8 12 && roundB notStoredB tinyCfg sts fairEvents 13 33 23 24 31 32 &&
    roundB notStoredB tinyCfg sts fairEvents 33 49 39 40 47 48 &&
    decide (sumSeq (gat tinyCfg sts 49 0).base.prefixes = 4) && decide (sumSeq (gat tinyCfg sts 49 1).base.prefixes = 4) &&
    decide ((gat tinyCfg sts 4 0).base.iblt ≠ (gat tinyCfg sts 4 1).base.iblt) &&
    decide ((Table.diff 40 (gat tinyCfg sts 4 0).base.iblt (gat tinyCfg sts 4 1).base.iblt).get?.map (·.canDecode) = some false) &&
    decide ((missing (gat tinyCfg sts 4) {(pA, 1), (pB, 3)}).card = 2) &&
    decide ((numberOf (gat tinyCfg sts 4 1) pA, numberOf (gat tinyCfg sts 4 1) pB) = (0, 0)) &&
    decide ((numberOf (gat tinyCfg sts 49 1) pA, numberOf (gat tinyCfg sts 49 1) pB) = (1, 3)))
    = some true := by decide +kernel

theorem fair_shape : (fairEvents.length = 49 ∧ (fairEvents.drop 4).all noPublicationB = true ∧
    fairEvents.all noRemovalB = true) := by decide +kernel

theorem notStored_of {s : Full} {n : Name} (h : notStoredB s n = true) : NotStored s n := by
  simpa [notStoredB, NotStored] using h

theorem Spec.Serves.mono {ι : Type} {ok ok' : Full → Name → Prop} (hok : ∀ s n, ok s n → ok' s n) {g : Nat → ι → Full}
    {who : Nat → ι} {what : Nat → Full.Op} {j i : ι} {m n : Nat} (h : Serves ok g who what j i m n) :
    Serves ok' g who what j i m n := by
  obtain ⟨k, a, int, lt, h1, h2, h3, h4, h5, h6, h7, h8⟩ := h
  exact ⟨k, a, int, lt, h1, h2, h3, h4, h5, h6, hok _ _ h7, h8⟩

theorem Spec.Round.mono {ι : Type} {ok ok' : Full → Name → Prop} (hok : ∀ s n, ok s n → ok' s n) {g : Nat → ι → Full}
    {who : Nat → ι} {what : Nat → Full.Op} {m n : Nat} (h : Round ok g who what m n) : Round ok' g who what m n :=
  ⟨h.order, fun j i hji => (h.served j i hji).mono hok⟩

theorem made_valid {l : List (Name × Nat)} (h : ∀ e ∈ l, e.1 = pA ∨ e.1 = pB) : ∀ e ∈ l, e.1.Valid := by
  intro e he
  rcases h e he with h | h <;> rw [h] <;> exact nameOf_valid (by decide)

theorem short_of {l : List (Name × Bytes × Nat)} (h : (l.map (·.2.1.length)).all (· < 1000) = true) :
    ∀ e ∈ l, e.2.1.length < 2 ^ 64 := by
  simp only [List.all_eq_true, List.mem_map, decide_eq_true_eq, forall_exists_index, and_imp] at h
  exact fun e he => lt_trans (h _ e he rfl) (by decide)

set_option maxRecDepth 4000 in
/-- Non-vacuity for C66: two nodes with IBFs of three cells.  Node 0 holds /a/1 and /b/3, node 1 nothing, and the
difference does not decode.  The two publications node 1 has not heard of are fewer than the three rounds. -/
theorem c66_sample : ∃ (g : Nat → Fin 2 → Full) (who : Nat → Fin 2) (what : Nat → Full.Op) (r : Nat → Nat),
    IsGroup tinyCfg ∧ GRun tinyCfg g who what 49 ∧ Sane tinyCfg (g 49) ∧ (∀ k < 49, ∀ p, ¬ (what k).Removes p) ∧
    (∀ i, NoCollisionsIn (tinyCfg i).expected (PublishedBy (g 49))) ∧
    (∀ i, sumSeq (g 49 i).base.prefixes < 2 ^ 64) ∧
    (∀ k, 4 ≤ k → k < 49 → ∀ p, ¬ (what k).Publishes p) ∧
    (∀ p q, PublishedBy (g 4) p q → (p, q) ∈ ({(pA, 1), (pB, 3)} : Finset (Name × Nat))) ∧
    4 ≤ r 0 ∧ (∀ k < 3, Round NotStored g who what (r k) (r (k + 1))) ∧ r 3 ≤ 49 ∧
    (missing (g 4) {(pA, 1), (pB, 3)}).card < 3 ∧
    (Table.diff 40 (g 4 0).base.iblt (g 4 1).base.iblt).get?.map (·.canDecode) = some false ∧
    (numberOf (g 4 1) pA, numberOf (g 4 1) pB) = (0, 0) ∧ (numberOf (g 49 1) pA, numberOf (g 49 1) pB) = (1, 3) := by
  obtain ⟨sts, h1, h2⟩ := Option.of_map fair_run
  simp only [Bool.and_eq_true, decide_eq_true_eq] at h2
  obtain ⟨⟨⟨⟨⟨⟨⟨⟨⟨⟨⟨⟨⟨⟨⟨m0, m1⟩, s0⟩, s1⟩, l0⟩, l1⟩, r1⟩, r2⟩, r3⟩, u0⟩, u1⟩, -⟩, hd⟩, hm⟩, n4⟩, n49⟩ := h2
  obtain ⟨hl, hp, hr⟩ := fair_shape
  have hrun := grun_sound h1 0
  rw [hl] at hrun
  have hpub : ∀ n ≤ 49, ∀ p q, PublishedBy (gat tinyCfg sts n) p q → (p, q) ∈ [(pA, 1), (pB, 3)] := by
    intro n hn p q hpq
    obtain ⟨j, hj⟩ := hrun.published hn (le_refl _) hpq
    match j with
    | 0 => rw [m0] at hj; exact hj
    | 1 => rw [m1] at hj; simp at hj
  have hsane : Sane duoCfg (gat tinyCfg sts 49) := by
    refine sane_duo (made_valid ?_) (made_valid ?_) (short_of s0) (short_of s1) l0 l1
    · rw [m0]; simp
    · rw [m1]; simp
  refine ⟨gat tinyCfg sts, gwho fairEvents 0, gwhat fairEvents, fun k => [4, 13, 33, 49].getD k 0, ?_, hrun,
    ⟨⟨hsane.names, hsane.buffers, hsane.version_lt⟩, hsane.versions⟩, fun k _ p => no_removal hr k p, ?_, ?_,
    fun k h4 _ p => no_publication hp k h4 p, ?_, le_refl _, ?_, le_refl _, ?_, hd, n4, n49⟩
  · exact ⟨fun _ _ => ⟨rfl, rfl, rfl, rfl⟩, fun i => ⟨(duoCfg_group.wf i).jitter_lo, (duoCfg_group.wf i).jitter_hi,
      none_lossless, none_lossless⟩, fun _ => Nat.one_pos⟩
  · exact fun i => noCollisionsIn_two (hpub 49 (le_refl _)) (by decide) (by decide +kernel) _
  · exact fin2_forall.mpr ⟨by rw [u0]; decide, by rw [u1]; decide⟩
  · intro p q hpq
    simpa using hpub 4 (by decide) p q hpq
  · intro k hk
    match k, hk with
    | 0, _ => exact (round_of r1).mono (fun _ _ => notStored_of)
    | 1, _ => exact (round_of r2).mono (fun _ _ => notStored_of)
    | 2, _ => exact (round_of r3).mono (fun _ _ => notStored_of)
  · rw [hm]; decide

/-! ### C66 is false as stated -/

/-- The full claim: as `c66_rounds_partial`, whatever the segment stores hold when a round begins. -/
def Spec.RoundsConverge : Prop :=
  ∀ (n : Nat) (cfg : Fin n → Cfg) (g : Nat → Fin n → Full) (who : Nat → Fin n) (what : Nat → Full.Op) (len t : Nat)
    (pubs : Finset (Name × Nat)) (r : Nat → Nat) (rounds : Nat),
    IsGroup cfg → GRun cfg g who what len → Sane cfg (g len) → (∀ k < len, ∀ p, ¬ (what k).Removes p) →
    (∀ i, NoCollisionsIn (cfg i).expected (PublishedBy (g len))) → (∀ i, sumSeq (g len i).base.prefixes < 2 ^ 64) →
    (∀ k, t ≤ k → k < len → ∀ p, ¬ (what k).Publishes p) → (∀ p q, PublishedBy (g t) p q → (p, q) ∈ pubs) →
    t ≤ r 0 → (∀ k < rounds, Round (fun _ _ => True) g who what (r k) (r (k + 1))) → r rounds ≤ len →
    (missing (g t) pubs).card < rounds → ∀ i j p, numberOf (g t j) p ≤ numberOf (g len i) p

def staleRounds : List (GEv 2) := gdriveAll slowCfg staleActs

theorem staleRounds_run : (grun slowCfg staleRounds).map (fun sts =>
    decide ((gat slowCfg sts 78 0).made = [(pA, 1), (pB, 1)]) && decide ((gat slowCfg sts 78 1).made = [(pA, 3)]) &&
    decide (((gat slowCfg sts 78 0).replies.map (·.2.1.length)).all (· < 1000)) &&
    decide (((gat slowCfg sts 78 1).replies.map (·.2.1.length)).all (· < 1000)) &&
    decide ((gat slowCfg sts 78 0).replies.length < 1000) && decide ((gat slowCfg sts 78 1).replies.length < 1000) &&
    roundB (fun _ _ => true) slowCfg sts staleRounds 13 28 23 24 18 26 &&
    roundB (fun _ _ => true) slowCfg sts staleRounds 28 50 46 47 37 49 &&
    roundB (fun _ _ => true) slowCfg sts staleRounds 50 78 74 75 69 77 &&
    decide (sumSeq (gat slowCfg sts 78 0).base.prefixes = 4) && decide (sumSeq (gat slowCfg sts 78 1).base.prefixes = 3) &&
    decide ((missing (gat slowCfg sts 13) {(pA, 1), (pA, 3), (pB, 1)}).card = 2) &&
    decide (numberOf (gat slowCfg sts 13 0) pB = 1) && decide (numberOf (gat slowCfg sts 78 1) pB = 0))
    = some true := by decide +kernel

theorem staleRounds_shape : (staleRounds.length = 78 ∧ (staleRounds.drop 13).all noPublicationB = true ∧
    staleRounds.all noRemovalB = true) := by decide +kernel

set_option maxRecDepth 4000 in
/-- C66 is false as stated.  Node 0, whose replies stay in its store for a minute, has answered an Interest of node 1
with the outdated /a/1 before it publishes /b/1.  As node 1 learns nothing from this reply, it sends the same Interest
in every round, and gets the same reply from the store. -/
theorem c66_false : ¬ Spec.RoundsConverge := by
  intro hclaim
  obtain ⟨sts, h1, h2⟩ := Option.of_map staleRounds_run
  simp only [Bool.and_eq_true, decide_eq_true_eq] at h2
  obtain ⟨⟨⟨⟨⟨⟨⟨⟨⟨⟨⟨⟨⟨m0, m1⟩, s0⟩, s1⟩, l0⟩, l1⟩, r1⟩, r2⟩, r3⟩, u0⟩, u1⟩, hm⟩, n13⟩, n78⟩ := h2
  obtain ⟨hl, hp, hr⟩ := staleRounds_shape
  have hrun := grun_sound h1 0
  rw [hl] at hrun
  have hpub : ∀ n ≤ 78, ∀ p q, PublishedBy (gat slowCfg sts n) p q → (p, q) ∈ [(pA, 1), (pA, 3), (pB, 1)] := by
    intro n hn p q hpq
    obtain ⟨j, hj⟩ := hrun.published hn (le_refl _) hpq
    match j with
    | 0 => rw [m0] at hj; simp at hj ⊢; tauto
    | 1 => rw [m1] at hj; simp at hj ⊢; tauto
  have hsane : Sane duoCfg (gat slowCfg sts 78) := by
    refine sane_duo (made_valid ?_) (made_valid ?_) (short_of s0) (short_of s1) l0 l1
    · rw [m0]; simp
    · rw [m1]; simp
  have := hclaim 2 slowCfg (gat slowCfg sts) (gwho staleRounds 0) (gwhat staleRounds) 78 13 {(pA, 1), (pA, 3), (pB, 1)}
    (fun k => [13, 28, 50, 78].getD k 0) 3
    ⟨fun _ _ => ⟨rfl, rfl, rfl, rfl⟩, fun i => ⟨(duoCfg_group.wf i).jitter_lo, (duoCfg_group.wf i).jitter_hi,
      none_lossless, none_lossless⟩, fun i => duoCfg_group.expected i⟩
    hrun ⟨⟨hsane.names, hsane.buffers, hsane.version_lt⟩, hsane.versions⟩ (fun k _ p => no_removal hr k p)
    (fun i => noCollisionsIn_list (hpub 78 (le_refl _)) (by decide) (by decide +kernel) (by decide +kernel) _)
    (fin2_forall.mpr ⟨by rw [u0]; decide, by rw [u1]; decide⟩) (fun k h4 _ p => no_publication hp k h4 p)
    (fun p q hpq => by simpa using hpub 13 (by decide) p q hpq) (le_refl _)
    (fun k hk => match k, hk with
      | 0, _ => (round_of r1).mono (fun _ _ _ => trivial)
      | 1, _ => (round_of r2).mono (fun _ _ _ => trivial)
      | 2, _ => (round_of r3).mono (fun _ _ _ => trivial)) (le_refl _) (by rw [hm]; decide) 1 0 pB
  rw [n13, n78] at this
  exact absurd this (by decide)

end PSync
