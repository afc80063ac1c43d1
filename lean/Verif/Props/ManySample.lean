import Verif.Props.PubSubSafe
/-!
A concrete run of a producer and two consumers for C61.
-/
namespace PSync
open Spec

/-- The state of a producer and two consumers. -/
abbrev Trio := Part × Cons × Cons

def pick (c : Cons × Cons) : Bool → Cons
  | false => c.1
  | true => c.2

/-- A line of a script, as in `Act`, for two consumers.  `askSegment`: the producer receives an Interest for segment 1 of the
last reply. -/
inductive MAct where
  | prod (op : Part.Op)
  | cons (i : Bool) (op : Cons.Op)
  | ask (i : Bool)
  | askSegment
  | helloPkt (i : Bool)
  | helloDone (i : Bool) (a1 a2 : List Cons.Call)
  | syncPkt (i : Bool)
  | syncDone (i : Bool) (a : List Cons.Call)

def MAct.event (s : Trio) : MAct → MEv Bool
  | .prod op => .prod op
  | .cons i op => .cons i op
  | .ask i => .prod (.recvInterest (lastInterest (pick s.2 i).log))
  | .askSegment => .prod (.recvInterest ⟨(lastData s.1.log).name.take ((lastData s.1.log).name.length - 1) ++ [⟨50, nniBytes 1⟩], 1000, 1⟩)
  | .helloPkt i => .cons i (.helloSegment (lastData s.1.log))
  | .helloDone i a1 a2 => .cons i (.helloComplete (lastData s.1.log).content a1 a2)
  | .syncPkt i => .cons i (.syncSegment (lastData s.1.log))
  | .syncDone i a => .cons i (.syncComplete (lastData s.1.log).content a)

def mstep (pc : Cfg) (cc : CCfg) (s : Trio) : MEv Bool → Option Trio
  | .prod op => match Part.step pc s.1 op with
    | .ok p => some (p, s.2)
    | _ => none
  | .cons i op => match Cons.step cc (pick s.2 i) op with
    | .ok c => some (s.1, if i then (s.2.1, c) else (c, s.2.2))
    | _ => none

abbrev MTrace := List (Trio × MEv Bool) × Trio

def morder (pc : Cfg) (cc : CCfg) (s : Trio) : List MAct → Option MTrace
  | [] => some ([], s)
  | a :: as =>
    match mstep pc cc s (a.event s) with
    | none => none
    | some s' => (morder pc cc s' as).map (fun r => ((s, a.event s) :: r.1, r.2))

def mat (r : MTrace) (n : Nat) : Trio := ((r.1[n]?).map Prod.fst).getD r.2
def mwhat (r : MTrace) (n : Nat) : MEv Bool := ((r.1[n]?).map Prod.snd).getD (.prod .fireStore)

theorem morder_sound {pc : Cfg} {cc : CCfg} : ∀ (as : List MAct) {s : Trio} {r : MTrace},
    morder pc cc s as = some r → mat r 0 = s ∧ r.1.length = as.length ∧
      ∀ n < as.length, mstep pc cc (mat r n) (mwhat r n) = some (mat r (n + 1)) := by
  intro as
  induction as with
  | nil => intro s r h; simp only [morder, Option.some.injEq] at h; subst h; simp [mat]
  | cons a as ih =>
    intro s r h
    simp only [morder] at h
    cases hs : mstep pc cc s (a.event s) with
    | none => simp [hs] at h
    | some s' =>
      simp only [hs, Option.map_eq_some_iff] at h
      obtain ⟨r', h1, rfl⟩ := h
      obtain ⟨h2, h3, h4⟩ := ih h1
      refine ⟨by simp [mat], by simp [h3], ?_⟩
      intro n hn
      cases n with
      | zero =>
        have : mat ((s, a.event s) :: r'.1, r'.2) (0 + 1) = mat r' 0 := by simp [mat]
        rw [this, h2]
        simpa [mat, mwhat] using hs
      | succ n =>
        have e1 : mat ((s, a.event s) :: r'.1, r'.2) (n + 1) = mat r' n := by simp [mat]
        have e2 : mat ((s, a.event s) :: r'.1, r'.2) (n + 1 + 1) = mat r' (n + 1) := by simp [mat]
        have e3 : mwhat ((s, a.event s) :: r'.1, r'.2) (n + 1) = mwhat r' n := by simp [mwhat]
        rw [e1, e2, e3]
        exact h4 n (by simpa using hn)

/-- What the producer and one consumer see of a run. -/
def viewOf (r : MTrace) (i : Bool) : List ((Part × Cons) × PSEv) × (Part × Cons) :=
  (r.1.map (fun x => ((x.1.1, pick x.1.2 i), seenBy i x.2)), (r.2.1, pick r.2.2 i))

theorem psat_view (r : MTrace) (i : Bool) (n : Nat) : psat (viewOf r i) n = ((mat r n).1, pick (mat r n).2 i) := by
  unfold psat viewOf mat
  simp only [List.getElem?_map]
  cases r.1[n]? <;> rfl

theorem pswhat_view (r : MTrace) (i : Bool) (n : Nat) : pswhat (viewOf r i) n = seenBy i (mwhat r n) := by
  unfold pswhat viewOf mwhat
  simp only [List.getElem?_map]
  cases r.1[n]? <;> rfl

/-- Fetches that complete in an event after `n` events are possible. -/
def fetchesB (cc : CCfg) (r : MTrace) (n : Nat) : MEv Bool → Bool
  | .cons i (.syncComplete buf _) => doneB (viewOf r i) (cc.syncPrefix ++ [SYNC]) syncSegOf n buf
  | .cons i (.helloComplete buf _ _) => doneB (viewOf r i) (cc.syncPrefix ++ [HELLO]) helloSegOf n buf
  | _ => true

theorem fetches_of {cc : CCfg} {r : MTrace} {n : Nat} {i : Bool} {op : Cons.Op} (h : fetchesB cc r n (.cons i op) = true) :
    FetchesSent (fun _ => cc) (fun n => (mat r n).1) (fun n => pick (mat r n).2) (mwhat r) n i op := by
  constructor
  · rintro buf acts rfl
    have := done_of syncSegOf_iff h
    simpa only [psat_view, pswhat_view, funext (pswhat_view r i)] using this
  · rintro buf a1 a2 rfl
    have := done_of helloSegOf_iff h
    simpa only [psat_view, pswhat_view, funext (pswhat_view r i)] using this

/-- The event may happen after `n` events; published numbers are in `ps`. -/
def honestMB (cc : CCfg) (ps : List (Name × Nat)) (r : MTrace) (n : Nat) (e : MEv Bool) : Bool :=
  fetchesB cc r n e &&
  (match e with
    | .prod (.recvInterest int) =>
      [false, true].any (fun i => (pick (mat r n).2 i).log.any (fun o => match o with
        | .interest m _ => decide (m = int.name)
        | _ => false)) ||
      (mat r n).1.log.any (fun o => match o with
        | .data d => decide (d.contentType = .blob) && decide (d.name ≠ []) && decide (int.name ≠ []) &&
            decide (List.dropLast d.name = List.dropLast int.name)
        | _ => false)
    | .prod (.publishName p seq) => (publications (mat r n).1.base.getSeqNo [.publishName p seq]).all (fun x => decide (x ∈ ps))
    | .cons i (.call .sendSync) => (pick (mat r n).2 i).log.any (fun o => match o with | .hello _ => true | _ => false)
    | _ => true)

theorem honestM_of {cc : CCfg} {ps : List (Name × Nat)} {r : MTrace} {n : Nat} {e : MEv Bool} (h : honestMB cc ps r n e = true) :
    HonestPS (fun _ => cc) (fun p q => (p, q) ∈ ps) (fun n => (mat r n).1) (fun n => pick (mat r n).2) (mwhat r) n e := by
  unfold honestMB at h
  rw [Bool.and_eq_true] at h
  obtain ⟨h1, h2⟩ := h
  refine ⟨?_, ?_, ?_, ?_⟩
  · rintro int rfl
    simp only [Bool.or_eq_true, List.any_eq_true] at h2
    rcases h2 with ⟨i, _, o, ho, hx⟩ | ⟨o, ho, hx⟩
    · left
      cases o with
      | interest m lt => simp only [decide_eq_true_eq] at hx; subst hx; exact ⟨i, lt, ho⟩
      | _ => simp at hx
    · right
      cases o with
      | data d =>
        simp only [Bool.and_eq_true, decide_eq_true_eq] at hx
        obtain ⟨⟨⟨h3, h4⟩, h5⟩, h6⟩ := hx
        refine ⟨d, List.dropLast d.name, d.name.getLast h4, int.name.getLast h5, ho, h3, (List.dropLast_concat_getLast h4).symm, ?_⟩
        rw [h6]
        exact (List.dropLast_concat_getLast h5).symm
      | _ => simp at hx
  · rintro p seq rfl x hx
    simp only [List.all_eq_true, decide_eq_true_eq] at h2
    exact h2 x hx
  · rintro i rfl
    simp only [List.any_eq_true] at h2
    obtain ⟨o, ho, hx⟩ := h2
    cases o with
    | hello l => exact ⟨l, ho⟩
    | _ => simp at hx
  · rintro i op rfl
    exact fetches_of h1

/-- The run of a script. -/
def mrun (pc : Cfg) (cc : CCfg) (as : List MAct) : Option MTrace :=
  (Cons.init cc).get?.bind fun c => (morder pc cc (Part.init pc, c, c) as).bind fun r =>
    if (List.range as.length).all (fun n => fetchesB cc r n (mwhat r n)) then some r else none

theorem mrun_sound {pc : Cfg} {cc : CCfg} {as : List MAct} {r : MTrace} (h : mrun pc cc as = some r) :
    MRun pc (fun _ => cc) (fun n => (mat r n).1) (fun n => pick (mat r n).2) (mwhat r) as.length := by
  unfold mrun at h
  simp only [Option.bind_eq_some_iff] at h
  obtain ⟨c, h1, r', h2, h3⟩ := h
  split at h3
  swap
  · cases h3
  rename_i hh
  cases h3
  simp only [List.all_eq_true, List.mem_range] at hh
  obtain ⟨h4, h5, h6⟩ := morder_sound as h2
  refine ⟨by rw [h4], fun i => ?_, fun n hn => ?_⟩
  · rw [h4]
    cases hc : Cons.init cc with
    | ok c' =>
      rw [hc] at h1
      simp only [Res.get?, Option.some.injEq] at h1
      rw [h1]
      cases i <;> rfl
    | _ => rw [hc] at h1; simp [Res.get?] at h1
  · have hs := h6 n hn
    have hb := hh n hn
    cases hw : mwhat r n with
    | prod op =>
      rw [hw] at hs
      simp only [mstep] at hs
      split at hs
      · rename_i p hp
        simp only [Option.some.injEq] at hs
        exact .prod op hw (by rw [hp, ← hs]) (by rw [← hs])
      · cases hs
    | cons i op =>
      rw [hw] at hs hb
      simp only [mstep] at hs
      split at hs
      · rename_i c' hc'
        simp only [Option.some.injEq] at hs
        refine .cons i op hw ?_ ?_ (by rw [← hs]) (fetches_of hb)
        · rw [hc', ← hs]
          cases i <;> rfl
        · intro j hj
          rw [← hs]
          cases i <;> cases j <;> first | rfl | exact absurd rfl hj
      · cases hs

/-- Two consumers subscribe to one prefix each and fetch the hello reply (the second one gets it from the producer's store, and
its application asks at once, from the callback).  Both sync Interests are parked.  /a is published and the first consumer is
told; /b is published and the second one is. -/
def trioScript : List MAct :=
  [.prod (.addUserNode pA), .prod (.addUserNode pB), .cons false (.call (.addSubscription pA 0 false)),
   .cons true (.call (.addSubscription pB 0 false)), .cons false (.call .sendHello), .cons true (.call .sendHello), .ask false,
   .helloPkt false, .helloDone false [] [], .ask true, .helloPkt true, .helloDone true [.sendSync] [], .askSegment,
   .cons false (.call .sendSync), .ask false, .ask true, .prod (.publishName pA none), .syncPkt false,
   .syncDone false [.removeSubscription pA], .prod (.publishName pB none), .syncPkt true, .syncDone true []]

/-- Events that may follow. -/
def trioNext : List MAct :=
  [.ask false, .ask true, .askSegment, .prod (.publishName pA (some 1)), .prod (.removeUserNode pA), .cons true (.call .sendSync),
   .cons true (.call .stop), .cons true (.syncError true), .cons false (.syncError false), .cons false .helloError]

set_option maxRecDepth 100000 in
theorem trio_run : ((mrun sampleCfg sampleCCfg trioScript).map fun r =>
    ((List.range 22).all fun n => honestMB sampleCCfg [(pA, 1), (pB, 1)] r n (mwhat r n)) &&
    (trioNext.all fun a => honestMB sampleCCfg [(pA, 1), (pB, 1)] r 22 (a.event (mat r 22))) &&
    regularB (viewOf r false) 22 [(pA, 1), (pB, 1)] && regularB (viewOf r true) 22 [(pA, 1), (pB, 1)] &&
    decide ((pick (mat r 22).2 false).log.contains (.update [⟨pA, 1, 1, 0⟩])) &&
    decide ((pick (mat r 22).2 true).log.contains (.update [⟨pB, 1, 1, 0⟩]))) = some true := by decide +kernel

/-- Non-vacuity for C61: the run of `trioScript` meets the hypotheses of `c61_never_fails`, each event of `trioNext` may follow it,
and both consumers have been told about their prefixes. -/
theorem c61_sample : ∃ (P : Nat → Part) (C : Nat → Bool → Cons) (what : Nat → MEv Bool) (K : Name → Nat → Prop),
    (∀ _ : Bool, Matching sampleCfg sampleCCfg) ∧ NoCollisionsIn sampleCfg.expected K ∧
    (∀ A B, HashesOf K A → HashesOf K B → diffCount A B < sampleCfg.fuel) ∧ MRun sampleCfg (fun _ => sampleCCfg) P C what 22 ∧
    (∀ n < 22, HonestPS (fun _ => sampleCCfg) K P C what n (what n)) ∧
    (∀ i, Regular sampleCfg P (fun k => seenBy i (what k)) 22) ∧
    (∀ a ∈ trioNext, HonestPS (fun _ => sampleCCfg) K P C what 22 (a.event (P 22, C 22 false, C 22 true))) ∧
    Out.update [⟨pA, 1, 1, 0⟩] ∈ (C 22 false).log ∧ Out.update [⟨pB, 1, 1, 0⟩] ∈ (C 22 true).log := by
  obtain ⟨r, h1, h2⟩ := Option.of_map trio_run
  simp only [Bool.and_eq_true, List.all_eq_true, List.mem_range, decide_eq_true_eq] at h2
  obtain ⟨⟨⟨⟨⟨hh, hx⟩, r0⟩, r1⟩, u0⟩, u1⟩ := h2
  refine ⟨fun n => (mat r n).1, fun n => pick (mat r n).2, mwhat r, fun p q => (p, q) ∈ [(pA, 1), (pB, 1)], fun _ => sample_matching,
    noCollisionsIn_two (ps := [(pA, 1), (pB, 1)]) (fun _ _ h => h) (by decide) (by decide +kernel) _,
    fun A B hA hB => lt_of_le_of_lt (diffCount_two (ps := [(pA, 1), (pB, 1)]) (fun _ _ h => h) (by decide) A B hA hB)
      (by simp [sampleCfg]), mrun_sound h1, fun n hn => honestM_of (hh n hn), ?_, fun a ha => honestM_of (hx a ha), ?_, ?_⟩
  · have reg : ∀ i, regularB (viewOf r i) 22 [(pA, 1), (pB, 1)] = true → Regular sampleCfg (fun n => (mat r n).1) (fun k => seenBy i (mwhat r k)) 22 := by
      intro i h
      have := regular_of h (by decide) (by decide +kernel)
      simp only [funext (pswhat_view r i), psat_view] at this
      exact this
    intro i
    cases i
    · exact reg false r0
    · exact reg true r1
  · simpa using u0
  · simpa using u1

/-- So the producer and the two consumers survive these events. -/
example : ∃ (P : Nat → Part) (C : Nat → Bool → Cons), ∀ a ∈ trioNext,
    DealtWith sampleCfg (fun _ => sampleCCfg) (P 22) (C 22) (a.event (P 22, C 22 false, C 22 true)) := by
  obtain ⟨P, C, what, K, h1, h2, h3, h4, h5, h6, h7, _⟩ := c61_sample
  exact ⟨P, C, fun a ha => c61_never_fails h1 h2 h3 h4 h5 h6 _ (h7 a ha)⟩

end PSync
