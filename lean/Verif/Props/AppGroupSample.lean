import Verif.Props.AppGroup
/-!
A concrete group of two full-sync example programs.
-/
namespace PSync
open Spec

/-- One event of a concrete run. -/
structure AEv (k : Nat) where
  who : Fin k
  what : FullApp.Op
  name : Name := []
  base : Name := []
  segs : List Data := []

def aevHonest (ss : List FullApp) (s : FullApp) {k : Nat} (e : AEv k) : Bool :=
  match e.what with
  | .prod (.complete buf _) => s.prod.log.any (fun o => match o with | .interest n _ => decide (n = e.name) | _ => false) &&
      fetchedB (ss.map FullApp.prod) e.name e.base e.segs buf
  | _ => true

/-- One event; `none` if it is not possible. -/
def appsStep {k : Nat} (cfg : Fin k → PubAppCfg) (ss : List FullApp) (e : AEv k) : Option (List FullApp) :=
  match ss[e.who.val]? with
  | none => none
  | some s =>
    if aevHonest ss s e then
      match FullApp.step (cfg e.who) s e.what with
      | .ok s' => some (ss.set e.who.val s')
      | _ => none
    else none

/-- All states of a concrete run, in order. -/
def appsOrder {k : Nat} (cfg : Fin k → PubAppCfg) (ss : List FullApp) : List (AEv k) → Option (List (List FullApp))
  | [] => some [ss]
  | e :: es =>
    match appsStep cfg ss e with
    | none => none
    | some ss' => (appsOrder cfg ss' es).map (ss :: ·)

def appsAll : List (Res FullApp) → Option (List FullApp)
  | [] => some []
  | .ok s :: l => (appsAll l).map (s :: ·)
  | _ :: _ => none

/-- The states of a concrete run from the start of all programs. -/
def appsRuns {k : Nat} (cfg : Fin k → PubAppCfg) (es : List (AEv k)) : Option (List (List FullApp)) :=
  (appsAll ((List.finRange k).map (fun i => FullApp.init (cfg i)))).bind fun ss => appsOrder cfg ss es

/-- The group as a function. -/
def appsFun {k : Nat} (cfg : Fin k → PubAppCfg) (ss : List FullApp) (i : Fin k) : FullApp :=
  (ss[i.val]?).getD ⟨Full.fresh (cfg i).pc, [], 0, [], []⟩

theorem appsFun_prod {k : Nat} (cfg : Fin k → PubAppCfg) (ss : List FullApp) :
    producers (appsFun cfg ss) = gfun (options cfg) (ss.map FullApp.prod) := by
  funext i
  simp only [producers, appsFun, gfun, List.getElem?_map, options]
  cases ss[i.val]? <;> rfl

theorem appsStep_sound {k : Nat} {cfg : Fin k → PubAppCfg} {ss ss' : List FullApp} (hl : ss.length = k) {e : AEv k}
    (h : appsStep cfg ss e = some ss') : ss'.length = k ∧ AStep cfg e.who e.what (appsFun cfg ss) (appsFun cfg ss') := by
  unfold appsStep at h
  cases hs : ss[e.who.val]? with
  | none => simp [hs] at h
  | some s =>
    rw [hs] at h
    simp only at h
    split at h
    · rename_i hh
      have hg : appsFun cfg ss e.who = s := by simp [appsFun, hs]
      split at h
      · rename_i s' hst
        simp only [Option.some.injEq] at h
        subst h
        refine ⟨by simp [hl], ?_, ?_, ?_⟩
        · intro buf acts hop
          unfold aevHonest at hh
          rw [hop] at hh
          simp only [Bool.and_eq_true, List.any_eq_true] at hh
          obtain ⟨⟨o, ho, h1⟩, h2⟩ := hh
          cases o with
          | interest n lt =>
            simp only [decide_eq_true_eq] at h1
            subst h1
            refine ⟨e.name, lt, e.segs, by rw [hg]; exact ho, ?_⟩
            rw [appsFun_prod]
            exact fetched_of (by simpa using hl) h2
          | _ => simp at h1
        · rw [hg, hst]
          have : e.who.val < ss.length := (List.getElem?_eq_some_iff.mp hs).1
          simp [appsFun, this]
        · intro j hj
          have : e.who.val ≠ j.val := fun h => hj (Fin.ext h.symm)
          simp [appsFun, List.getElem?_set_ne this]
      · simp at h
    · simp at h

def appsWho {k : Nat} (es : List (AEv k)) (d : Fin k) (n : Nat) : Fin k := ((es[n]?).map AEv.who).getD d
def appsWhat {k : Nat} (es : List (AEv k)) (n : Nat) : FullApp.Op := ((es[n]?).map AEv.what).getD .update

/-- The states as a function. -/
def appsAt {k : Nat} (cfg : Fin k → PubAppCfg) (sts : List (List FullApp)) (n : Nat) : Fin k → FullApp := appsFun cfg ((sts[n]?).getD [])

theorem appsOrder_sound {k : Nat} {cfg : Fin k → PubAppCfg} : ∀ (es : List (AEv k)) {ss : List FullApp} {sts : List (List FullApp)},
    appsOrder cfg ss es = some sts → sts.length = es.length + 1 ∧ sts[0]? = some ss ∧
      ∀ n (e : AEv k), es[n]? = some e → ∃ a b, sts[n]? = some a ∧ sts[n + 1]? = some b ∧ appsStep cfg a e = some b := by
  intro es
  induction es with
  | nil => intro ss sts h; simp only [appsOrder, Option.some.injEq] at h; subst h; simp
  | cons e es ih =>
    intro ss sts h
    simp only [appsOrder] at h
    cases hs : appsStep cfg ss e with
    | none => simp [hs] at h
    | some ss' =>
      simp only [hs, Option.map_eq_some_iff] at h
      obtain ⟨l, hl, rfl⟩ := h
      obtain ⟨h1, h2, h3⟩ := ih hl
      refine ⟨by simp [h1], by simp, ?_⟩
      intro n e' he
      cases n with
      | zero =>
        simp only [List.getElem?_cons_zero, Option.some.injEq] at he
        subst he
        exact ⟨ss, ss', by simp, by simpa using h2, hs⟩
      | succ n =>
        simp only [List.getElem?_cons_succ] at he ⊢
        exact h3 n e' he

theorem appsAll_sound : ∀ {l : List (Res FullApp)} {ss : List FullApp}, appsAll l = some ss → l = ss.map .ok := by
  intro l
  induction l with
  | nil => intro ss h; simp only [appsAll, Option.some.injEq] at h; subst h; rfl
  | cons x l ih =>
    intro ss h
    cases x with
    | ok s =>
      simp only [appsAll, Option.map_eq_some_iff] at h
      obtain ⟨l', h1, rfl⟩ := h
      simp [ih h1]
    | _ => simp [appsAll] at h

theorem appsRuns_sound {k : Nat} {cfg : Fin k → PubAppCfg} {es : List (AEv k)} {sts : List (List FullApp)} (h : appsRuns cfg es = some sts)
    (d : Fin k) : ARun cfg (appsAt cfg sts) (appsWho es d) (appsWhat es) es.length ∧
      ∀ (n : Nat) (x : List FullApp), sts[n]? = some x → x.length = k := by
  unfold appsRuns at h
  rw [Option.bind_eq_some_iff] at h
  obtain ⟨ss, h1, h2⟩ := h
  have h3 := appsAll_sound h1
  have hl : ss.length = k := by
    have := congrArg List.length h3
    simpa using this.symm
  obtain ⟨h4, h5, h6⟩ := appsOrder_sound es h2
  have len : ∀ (n : Nat) (a : List FullApp), sts[n]? = some a → a.length = k := by
    intro n
    induction n with
    | zero => intro a ha; rw [h5, Option.some.injEq] at ha; subst ha; exact hl
    | succ n ih =>
      intro a ha
      have hn := (List.getElem?_eq_some_iff.mp ha).1
      obtain ⟨e, he⟩ : ∃ e, es[n]? = some e := ⟨_, List.getElem?_eq_getElem (by omega)⟩
      obtain ⟨x, y, e1, e2, e3⟩ := h6 n e he
      rw [e2, Option.some.injEq] at ha
      subst ha
      exact (appsStep_sound (ih x e1) e3).1
  refine ⟨⟨fun i => ?_, fun n hn => ?_⟩, len⟩
  · have := congrArg (·[i.val]?) h3
    simp only [List.getElem?_map] at this
    rw [List.getElem?_eq_getElem (l := List.finRange k) (by simp)] at this
    have hi : ss[i.val]? = some ss[i.val] := List.getElem?_eq_getElem (by omega)
    rw [hi] at this
    simp only [List.getElem_finRange, Option.map_some, Option.some.injEq, Fin.cast_mk, Fin.eta] at this
    rw [this]
    simp [appsAt, appsFun, h5, hi]
  · obtain ⟨e, he⟩ : ∃ e, es[n]? = some e := ⟨_, List.getElem?_eq_getElem hn⟩
    obtain ⟨x, y, e1, e2, e3⟩ := h6 n e he
    have := (appsStep_sound (len n x e1) e3).2
    simp only [appsWho, appsWhat, appsAt, he, e1, e2, Option.map_some, Option.getD_some]
    exact this

/-- Two programs; the first publishes stream /a once, the second stream /b twice. -/
def duoApps (i : Fin 2) : PubAppCfg :=
  { pc := duoCfg i, stream := fun _ => if i = 0 then pA else pB, num := 1, maxPublish := i.val + 1, delay := fun k => k }

theorem duoApps_streams : (duoApps 0).streams = [pA] ∧ (duoApps 1).streams = [pB] := by decide

theorem duoApps_own : OwnStreams duoApps := by
  obtain ⟨h0, h1⟩ := duoApps_streams
  refine ⟨fin2_forall.mpr ⟨by rw [h0]; simp, by rw [h1]; simp⟩, fin2_forall.mpr ⟨fin2_forall.mpr ⟨fun _ _ _ => rfl, ?_⟩, fin2_forall.mpr ⟨?_, fun _ _ _ => rfl⟩⟩⟩
  · intro p h2 h3
    rw [h0] at h2; rw [h1] at h3
    rw [List.mem_singleton.mp h2] at h3
    exact absurd h3 (by decide)
  · intro p h2 h3
    rw [h1] at h2; rw [h0] at h3
    rw [List.mem_singleton.mp h2] at h3
    exact absurd h3 (by decide)

/-- The replies. -/
def appsReply0 : Data := ⟨emptyInterest.name ++ [⟨54, [1]⟩, ⟨50, [0]⟩], .blob, encodeNames [pA.appendNumber 1], 1000, some ⟨50, [0]⟩⟩
def appsReply1 : Data :=
  ⟨emptyInterest.name ++ [⟨54, [2]⟩, ⟨50, [0]⟩], .blob, encodeNames [pA.appendNumber 1, pB.appendNumber 2], 1000, some ⟨50, [0]⟩⟩

/-- The first program publishes /a/1, the second /b/1 and /b/2; then each fetches the reply of the other. -/
def appsEvents : List (AEv 2) :=
  [{ who := 0, what := .update }, { who := 1, what := .update }, { who := 1, what := .prod (.tick 5) }, { who := 1, what := .update },
   { who := 0, what := .prod (.recvInterest emptyInterest) },
   { who := 1, what := .prod (.complete appsReply0.content []), name := emptyInterest.name,
     base := emptyInterest.name ++ [⟨54, [1]⟩], segs := [appsReply0] },
   { who := 1, what := .prod (.recvInterest emptyInterest) },
   { who := 0, what := .prod (.complete appsReply1.content []), name := emptyInterest.name,
     base := emptyInterest.name ++ [⟨54, [2]⟩], segs := [appsReply1] }]

set_option maxRecDepth 100000 in
theorem apps_run : (appsRuns duoApps appsEvents).map (fun sts =>
    decide ((appsAt duoApps sts 8 0).prod.made = [(pA, 1)]) && decide ((appsAt duoApps sts 8 1).prod.made = [(pB, 1), (pB, 2)]) &&
    decide ((appsAt duoApps sts 8 0).prod.replies = [(emptyInterest.name, appsReply0.content, 1000)]) &&
    decide ((appsAt duoApps sts 8 1).prod.replies = [(emptyInterest.name, appsReply1.content, 1000)]) &&
    decide (Out.interest emptyInterest.name 1000 ∈ (appsAt duoApps sts 4 1).prod.log) &&
    decide (Out.interest emptyInterest.name 1000 ∈ (appsAt duoApps sts 6 0).prod.log) &&
    decide ((appsAt duoApps sts 4 0).prod.pub.replyFromStore emptyInterest.name = none) &&
    decide ((appsAt duoApps sts 6 1).prod.pub.replyFromStore emptyInterest.name = none) &&
    decide (Out.data appsReply0 ∈ newOutput (appsAt duoApps sts 4 0).prod (appsAt duoApps sts 5 0).prod) &&
    decide (Out.data appsReply1 ∈ newOutput (appsAt duoApps sts 6 1).prod (appsAt duoApps sts 7 1).prod) &&
    ((appsAt duoApps sts 5 1).prod.fetcher).any (·.active) && ((appsAt duoApps sts 7 0).prod.fetcher).any (·.active) &&
    decide (Out.interest emptyInterest.name 1000 ∈ (appsAt duoApps sts 5 1).prod.log) &&
    decide (Out.interest emptyInterest.name 1000 ∈ (appsAt duoApps sts 7 0).prod.log) &&
    fetchedB (((sts[5]?).getD []).map FullApp.prod) emptyInterest.name (emptyInterest.name ++ [⟨54, [1]⟩]) [appsReply0] appsReply0.content &&
    fetchedB (((sts[7]?).getD []).map FullApp.prod) emptyInterest.name (emptyInterest.name ++ [⟨54, [2]⟩]) [appsReply1] appsReply1.content &&
    decide (sts.length = 9) &&
    decide ((appsAt duoApps sts 4 0).timers = []) && decide ((appsAt duoApps sts 4 1).timers = []) &&
    decide ((appsAt duoApps sts 8 0).printed = [(pB, 1), (pB, 2)]) && decide ((appsAt duoApps sts 8 1).printed = [(pA, 1)]))
    = some true := by decide +kernel

set_option maxRecDepth 4000 in
/-- Non-vacuity for C80: a run of two programs that meets all hypotheses of `c80_everything`, and so of `c80_own`, `c80_others` and
`c80_nothing_else`; at the end the first has printed /b/1 and /b/2, the second /a/1. -/
theorem c80_sample : ∃ (a : Nat → Fin 2 → FullApp) (who : Nat → Fin 2) (what : Nat → FullApp.Op),
    IsGroup (options duoApps) ∧ OwnStreams duoApps ∧ ARun duoApps a who what 8 ∧ Sane (options duoApps) (producers (a 8)) ∧
    (∀ i, NoCollisionsIn (duoApps i).pc.expected (PublishedBy (producers (a 8)))) ∧ (∀ i, (a 4 i).timers = []) ∧
    (∀ j i, Path NotStored (options duoApps) (fun n => producers (a n)) who (producerEvent a who what) j 4 i 8) ∧
    pB ∈ (duoApps 1).streams ∧ 1 ≤ (duoApps 1).maxPublish ∧ (duoApps 1).maxPublish < 2 ^ 64 ∧
    (a 8 0).printed = [(pB, 1), (pB, 2)] ∧ (a 8 1).printed = [(pA, 1)] := by
  obtain ⟨sts, h1, h2⟩ := Option.of_map apps_run
  simp only [Bool.and_eq_true, decide_eq_true_eq, Option.any_eq_true] at h2
  obtain ⟨⟨⟨⟨⟨⟨⟨⟨⟨⟨⟨⟨⟨⟨⟨⟨⟨⟨⟨⟨m0, m1⟩, r0⟩, r1⟩, i4⟩, i6⟩, s4⟩, s6⟩, d4⟩, d6⟩, f5⟩, f7⟩, i5⟩, i7⟩, b5⟩, b7⟩, hl⟩, t0⟩, t1⟩, n0⟩, n1⟩ := h2
  obtain ⟨hrun, hlen⟩ := appsRuns_sound h1 0
  have hfetch : ∀ (n : Nat) (name base : Name) (segs : List Data) (buf : Bytes), n < 9 →
      fetchedB (((sts[n]?).getD []).map FullApp.prod) name base segs buf = true →
      Fetched (SentBy (producers (appsAt duoApps sts n))) name segs buf := by
    intro n name base segs buf hn h
    unfold appsAt
    rw [appsFun_prod]
    refine fetched_of ?_ h
    have hx : sts[n]? = some sts[n] := List.getElem?_eq_getElem (by omega)
    rw [hx, Option.getD_some, List.length_map]
    exact hlen n _ hx
  refine ⟨appsAt duoApps sts, appsWho appsEvents 0, appsWhat appsEvents, duoCfg_group, duoApps_own, hrun, ?_, ?_, fin2_forall.mpr ⟨t0, t1⟩, ?_,
    by rw [duoApps_streams.2]; simp, by simp [duoApps], by simp [duoApps], n0, n1⟩
  · refine sane_duo (g := producers (appsAt duoApps sts 8)) ?_ ?_ ?_ ?_ ?_ ?_ <;> simp only [producers]
    · rw [m0]; intro e he; rw [List.mem_singleton.mp he]; exact nameOf_valid (by decide)
    · rw [m1]
      intro e he
      have : e.1 = pB := by
        rcases List.mem_cons.mp he with rfl | he
        · rfl
        · rw [List.mem_singleton.mp he]
      rw [this]; exact nameOf_valid (by decide)
    · rw [r0]; intro e he; rw [List.mem_singleton.mp he]; decide
    · rw [r1]; intro e he; rw [List.mem_singleton.mp he]; decide
    · rw [r0]; decide
    · rw [r1]; decide
  · intro i
    refine noCollisionsIn_list (ps := [(pA, 1), (pB, 1), (pB, 2)]) ?_ (by decide) (by decide +kernel) (by decide +kernel) _
    rintro p q ⟨j, hj⟩
    simp only [producers] at hj
    match j with
    | 0 => rw [m0] at hj; rw [List.mem_singleton.mp hj]; simp
    | 1 => rw [m1] at hj; exact List.mem_cons_of_mem _ hj
  · intro j i
    match j, i with
    | 0, 0 => exact .same 8 (by decide)
    | 1, 1 => exact .same 8 (by decide)
    | 0, 1 =>
      exact .next 0 1 4 6 8 (.same 4 (by decide)) (.answered emptyInterest appsReply0 5 ⟨rfl, rfl, 1000, i4⟩ s4 d4 (by decide)
        ⟨rfl, f5, emptyInterest.name, 1000, [appsReply0], _, [], i5, hfetch 5 _ _ _ _ (by decide) b5, rfl, rfl⟩) (by decide)
    | 1, 0 =>
      exact .next 1 0 6 8 8 (.same 6 (by decide)) (.answered emptyInterest appsReply1 7 ⟨rfl, rfl, 1000, i6⟩ s6 d6 (by decide)
        ⟨rfl, f7, emptyInterest.name, 1000, [appsReply1], _, [], i7, hfetch 7 _ _ _ _ (by decide) b7, rfl, rfl⟩) (by decide)

end PSync
