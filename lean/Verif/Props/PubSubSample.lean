import Verif.Spec.PubSub
import Verif.Props.Sample
/-!
Concrete runs of a producer and a consumer: a checked list of events is a run.
-/
namespace PSync
open Spec

/-- A line of a script.  `ask`: the producer receives the last Interest the consumer has sent.  The others: the
fetcher of the consumer receives the last packet the producer has sent, or completes with its content. -/
inductive Act where
  | prod (op : Part.Op)
  | cons (op : Cons.Op)
  | ask
  | helloPkt
  | helloDone (a1 a2 : List Cons.Call)
  | syncPkt
  | syncDone (a : List Cons.Call)

def lastData (log : List Out) : Data :=
  ((log.filterMap (fun o => match o with | .data d => some d | _ => none)).getLast?).getD ⟨[], .blob, [], 0, none⟩

def lastInterest (log : List Out) : Interest :=
  ((log.filterMap (fun o => match o with | .interest n lt => some ⟨n, lt, 1⟩ | _ => none)).getLast?).getD ⟨[], 0, 1⟩

def Act.event (s : Part × Cons) : Act → PSEv
  | .prod op => .prod op
  | .cons op => .cons op
  | .ask => .prod (.recvInterest (lastInterest s.2.log))
  | .helloPkt => .cons (.helloSegment (lastData s.1.log))
  | .helloDone a1 a2 => .cons (.helloComplete (lastData s.1.log).content a1 a2)
  | .syncPkt => .cons (.syncSegment (lastData s.1.log))
  | .syncDone a => .cons (.syncComplete (lastData s.1.log).content a)

/-- One event of a concrete run. -/
def psstep (pc : Cfg) (cc : CCfg) (s : Part × Cons) : PSEv → Option (Part × Cons)
  | .prod op => match Part.step pc s.1 op with
    | .ok p => some (p, s.2)
    | _ => none
  | .cons op => match Cons.step cc s.2 op with
    | .ok c => some (s.1, c)
    | _ => none

/-- Each event of a script with the state before it, and the last state. -/
def psorder (pc : Cfg) (cc : CCfg) (s : Part × Cons) : List Act → Option (List ((Part × Cons) × PSEv) × (Part × Cons))
  | [] => some ([], s)
  | a :: as =>
    match psstep pc cc s (a.event s) with
    | none => none
    | some s' => (psorder pc cc s' as).map (fun r => ((s, a.event s) :: r.1, r.2))

/-- The states and events of a script as functions. -/
def psat (r : List ((Part × Cons) × PSEv) × (Part × Cons)) (n : Nat) : Part × Cons := ((r.1[n]?).map Prod.fst).getD r.2
def pswhat (r : List ((Part × Cons) × PSEv) × (Part × Cons)) (n : Nat) : PSEv :=
  ((r.1[n]?).map Prod.snd).getD (.prod .fireStore)

theorem psorder_sound {pc : Cfg} {cc : CCfg} : ∀ (as : List Act) {s : Part × Cons} {r : List ((Part × Cons) × PSEv) × (Part × Cons)},
    psorder pc cc s as = some r → psat r 0 = s ∧ r.1.length = as.length ∧
      ∀ n < as.length, psstep pc cc (psat r n) (pswhat r n) = some (psat r (n + 1)) := by
  intro as
  induction as with
  | nil => intro s r h; simp only [psorder, Option.some.injEq] at h; subst h; simp [psat]
  | cons a as ih =>
    intro s r h
    simp only [psorder] at h
    cases hs : psstep pc cc s (a.event s) with
    | none => simp [hs] at h
    | some s' =>
      simp only [hs, Option.map_eq_some_iff] at h
      obtain ⟨r', h1, rfl⟩ := h
      obtain ⟨h2, h3, h4⟩ := ih h1
      refine ⟨by simp [psat], by simp [h3], ?_⟩
      intro n hn
      cases n with
      | zero =>
        have : psat ((s, a.event s) :: r'.1, r'.2) (0 + 1) = psat r' 0 := by simp [psat]
        rw [this, h2]
        simpa [psat, pswhat] using hs
      | succ n =>
        have e1 : psat ((s, a.event s) :: r'.1, r'.2) (n + 1) = psat r' n := by simp [psat]
        have e2 : psat ((s, a.event s) :: r'.1, r'.2) (n + 1 + 1) = psat r' (n + 1) := by simp [psat]
        have e3 : pswhat ((s, a.event s) :: r'.1, r'.2) (n + 1) = pswhat r' n := by simp [pswhat]
        rw [e1, e2, e3]
        exact h4 n (by simpa using hn)

def syncSegOf : PSEv → Option Data
  | .cons (.syncSegment d) => some d
  | _ => none

def helloSegOf : PSEv → Option Data
  | .cons (.helloSegment d) => some d
  | _ => none

theorem syncSegOf_iff (e : PSEv) (d : Data) : syncSegOf e = some d ↔ e = .cons (.syncSegment d) := by
  unfold syncSegOf
  constructor
  · intro h
    split at h
    · cases h; rfl
    · cases h
  · rintro rfl; rfl

theorem helloSegOf_iff (e : PSEv) (d : Data) : helloSegOf e = some d ↔ e = .cons (.helloSegment d) := by
  unfold helloSegOf
  constructor
  · intro h
    split at h
    · cases h; rfl
    · cases h
  · rintro rfl; rfl

/-- The packets received by a fetcher between the events `m` and `n`. -/
def segsBetween (f : PSEv → Option Data) (what : Nat → PSEv) (m n : Nat) : List Data :=
  (List.range n).filterMap (fun k => if m < k then f (what k) else none)

/-- The name of the first packet without the segment number. -/
def commonName : List Data → Name
  | [] => []
  | d :: _ => d.name.take (d.name.length - 1)

/-- The fetch that completes in event `n` is possible. -/
def doneB (r : List ((Part × Cons) × PSEv) × (Part × Cons)) (pre : Name) (f : PSEv → Option Data) (n : Nat) (buf : Bytes) : Bool :=
  (List.range n).any fun m =>
    let ask := fun k => askedUnder pre (psat r k).2.log
    let segs := segsBetween f (pswhat r) m n
    decide (ask m ≠ ask (m + 1)) && decide (ask n = ask (m + 1)) && (ask n).getLast?.any (fun name =>
      segs.all (fun d => (psat r n).1.log.any (fun o => decide (o = .data d))) &&
      (List.range segs.length).all (fun i => (segs[i]?).any (fun d => decide (d.name = commonName segs ++ [⟨50, nniBytes i⟩]))) &&
      (segs[0]?).any (fun d => name.isPrefixOf d.name) &&
      segs.any (fun d => decide (d.finalBlock = some ⟨50, nniBytes (segs.length - 1)⟩)) &&
      decide (segs.length < 18446744073709551616) && decide (buf = (segs.map Data.content).flatten))

theorem done_of {r : List ((Part × Cons) × PSEv) × (Part × Cons)} {pre : Name} {f : PSEv → Option Data} {seg : Data → Cons.Op}
    (hf : ∀ e d, f e = some d ↔ e = .cons (seg d)) {n : Nat} {buf : Bytes} (h : doneB r pre f n buf = true) :
    FetchDone (fun d => Out.data d ∈ (psat r n).1.log) (fun k => (psat r k).2) (pswhat r) pre seg n buf := by
  unfold doneB at h
  simp only [List.any_eq_true, List.mem_range, Bool.and_eq_true, decide_eq_true_eq, Option.any_eq_true, List.all_eq_true] at h
  obtain ⟨m, hm, ⟨h1, h2⟩, name, h3, ⟨⟨⟨⟨⟨h4, h5⟩, h6⟩, h7⟩, h8⟩, h9⟩⟩ := h
  refine ⟨m, hm, name, segsBetween f (pswhat r) m n, h1, h2, h3, ⟨?_, ⟨commonName (segsBetween f (pswhat r) m n), ?_⟩, ?_, h7, h8, h9⟩, ?_⟩
  · intro d hd
    obtain ⟨o, ho, rfl⟩ := h4 d hd
    exact ho
  · intro i d hd
    obtain ⟨d', h10, h11⟩ := h5 i (List.getElem?_eq_some_iff.mp hd).1
    rw [hd, Option.some.injEq] at h10
    subst h10
    exact h11
  · obtain ⟨d, h10, h11⟩ := h6
    exact ⟨d, h10, List.isPrefixOf_iff_prefix.mp h11⟩
  · intro d
    simp only [segsBetween, List.mem_filterMap, List.mem_range]
    constructor
    · rintro ⟨k, hk, h10⟩
      split at h10
      · rename_i hmk
        exact ⟨k, hmk, hk, (hf _ _).mp h10⟩
      · cases h10
    · rintro ⟨k, hmk, hk, h10⟩
      exact ⟨k, hk, by rw [if_pos hmk]; exact (hf _ _).mpr h10⟩

def honestPS (cc : CCfg) (r : List ((Part × Cons) × PSEv) × (Part × Cons)) (n : Nat) : Bool :=
  match pswhat r n with
  | .cons (.syncComplete buf _) => doneB r (cc.syncPrefix ++ [SYNC]) syncSegOf n buf
  | .cons (.helloComplete buf _ _) => doneB r (cc.syncPrefix ++ [HELLO]) helloSegOf n buf
  | _ => true

/-- The run of a script from the start; `none` if it is not possible. -/
def psrun (pc : Cfg) (cc : CCfg) (as : List Act) : Option (List ((Part × Cons) × PSEv) × (Part × Cons)) :=
  (Cons.init cc).get?.bind fun c => (psorder pc cc (Part.init pc, c) as).bind fun r =>
    if (List.range as.length).all (honestPS cc r) then some r else none

theorem psrun_sound {pc : Cfg} {cc : CCfg} {as : List Act} {r : List ((Part × Cons) × PSEv) × (Part × Cons)}
    (h : psrun pc cc as = some r) :
    PSRun pc cc (fun n => (psat r n).1) (fun n => (psat r n).2) (pswhat r) as.length := by
  unfold psrun at h
  simp only [Option.bind_eq_some_iff] at h
  obtain ⟨c, h1, r', h2, h3⟩ := h
  split at h3
  swap
  · cases h3
  rename_i hh
  cases h3
  simp only [List.all_eq_true, List.mem_range] at hh
  obtain ⟨h4, h5, h6⟩ := psorder_sound as h2
  refine ⟨by rw [h4], ?_, fun n hn => ?_⟩
  · rw [h4]
    cases hc : Cons.init cc with
    | ok c' => rw [hc] at h1; simp only [Res.get?, Option.some.injEq] at h1; rw [h1]
    | _ => rw [hc] at h1; simp [Res.get?] at h1
  · have hs := h6 n hn
    have hb := hh n hn
    unfold psstep at hs
    split at hs
    · rename_i op hw
      split at hs
      · rename_i p hp
        simp only [Option.some.injEq] at hs
        exact .prod op hw (by rw [hp, ← hs]) (by rw [← hs])
      · cases hs
    · rename_i op hw
      split at hs
      · rename_i c' hc'
        simp only [Option.some.injEq] at hs
        refine .cons op hw (by rw [hc', ← hs]) (by rw [← hs]) ?_ ?_
        · rintro buf acts rfl
          unfold honestPS at hb
          rw [hw] at hb
          exact done_of syncSegOf_iff hb
        · rintro buf a1 a2 rfl
          unfold honestPS at hb
          rw [hw] at hb
          exact done_of helloSegOf_iff hb
      · cases hs

end PSync
