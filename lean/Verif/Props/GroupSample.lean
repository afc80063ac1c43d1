import Verif.Spec.Group
import Verif.Props.Sample
/-!
Concrete runs of small groups: a checked list of events is a run.
-/
namespace PSync
open Spec

/-- An event of a concrete run; the last three fields describe the fetch if one completes. -/
structure GEv (k : Nat) where
  who : Fin k
  what : Full.Op
  name : Name := []
  base : Name := []
  segs : List Data := []

/-- The fetch described by an event is possible. -/
def fetchedB (ss : List Full) (name base : Name) (segs : List Data) (buf : Bytes) : Bool :=
  segs.all (fun d => ss.any (fun s => s.log.any (fun o => decide (o = .data d)))) &&
  (List.range segs.length).all (fun i => (segs[i]?).any (fun d => decide (d.name = base ++ [⟨50, nniBytes i⟩]))) &&
  (segs[0]?).any (fun d => name.isPrefixOf d.name) &&
  segs.any (fun d => decide (d.finalBlock = some ⟨50, nniBytes (segs.length - 1)⟩)) &&
  decide (segs.length < 18446744073709551616) && decide (buf = (segs.map Data.content).flatten)

def honestB (ss : List Full) (s : Full) {k : Nat} (e : GEv k) : Bool :=
  match e.what with
  | .complete buf _ => s.log.any (fun o => match o with | .interest n _ => decide (n = e.name) | _ => false) &&
      fetchedB ss e.name e.base e.segs buf
  | _ => true

/-- One event of a concrete run; `none` if it is not possible. -/
def gstep {k : Nat} (cfg : Fin k → Cfg) (ss : List Full) (e : GEv k) : Option (List Full) :=
  match ss[e.who.val]? with
  | none => none
  | some s =>
    if honestB ss s e then
      match Full.step (cfg e.who) s e.what with
      | .ok s' => some (ss.set e.who.val s')
      | _ => none
    else none

/-- All states of a concrete run, in order. -/
def gorder {k : Nat} (cfg : Fin k → Cfg) (ss : List Full) : List (GEv k) → Option (List (List Full))
  | [] => some [ss]
  | e :: es =>
    match gstep cfg ss e with
    | none => none
    | some ss' => (gorder cfg ss' es).map (ss :: ·)

def allGet : List (Res Full) → Option (List Full)
  | [] => some []
  | .ok s :: l => (allGet l).map (s :: ·)
  | _ :: _ => none

/-- The states of a concrete run from the start of all nodes. -/
def grun {k : Nat} (cfg : Fin k → Cfg) (es : List (GEv k)) : Option (List (List Full)) :=
  (allGet ((List.finRange k).map (fun i => Full.init (cfg i)))).bind fun ss => gorder cfg ss es

/-- The group as a function. -/
def gfun {k : Nat} (cfg : Fin k → Cfg) (ss : List Full) (i : Fin k) : Full := (ss[i.val]?).getD (Full.fresh (cfg i))

theorem fetched_of {k : Nat} {cfg : Fin k → Cfg} {ss : List Full} (hl : ss.length = k) {name base : Name} {segs : List Data}
    {buf : Bytes} (h : fetchedB ss name base segs buf = true) : Fetched (SentBy (gfun cfg ss)) name segs buf := by
  unfold fetchedB at h
  simp only [Bool.and_eq_true, List.all_eq_true, List.any_eq_true, decide_eq_true_eq, Option.any_eq_true] at h
  obtain ⟨⟨⟨⟨⟨h1, h2⟩, h3⟩, h4⟩, h5⟩, h6⟩ := h
  refine ⟨?_, ⟨base, ?_⟩, ?_, h4, h5, h6⟩
  · intro d hd
    obtain ⟨s, hs, o, ho, rfl⟩ := h1 d hd
    obtain ⟨i, hi⟩ := List.mem_iff_getElem?.mp hs
    have hik := (List.getElem?_eq_some_iff.mp hi).1
    exact ⟨⟨i, by omega⟩, by simp only [gfun, hi, Option.getD_some]; exact ho⟩
  · intro i d hd
    obtain ⟨d', h7, h8⟩ := h2 i (by rw [List.mem_range]; exact (List.getElem?_eq_some_iff.mp hd).1)
    rw [hd, Option.some.injEq] at h7
    subst h7; exact h8
  · obtain ⟨d, h7, h8⟩ := h3
    exact ⟨d, h7, List.isPrefixOf_iff_prefix.mp h8⟩

theorem gstep_sound {k : Nat} {cfg : Fin k → Cfg} {ss ss' : List Full} (hl : ss.length = k) {e : GEv k}
    (h : gstep cfg ss e = some ss') :
    ss'.length = k ∧ GStep cfg e.who e.what (gfun cfg ss) (gfun cfg ss') := by
  unfold gstep at h
  cases hs : ss[e.who.val]? with
  | none => simp [hs] at h
  | some s =>
    rw [hs] at h
    simp only at h
    split at h
    · rename_i hh
      have hg : gfun cfg ss e.who = s := by simp [gfun, hs]
      split at h
      · rename_i s' hst
        simp only [Option.some.injEq] at h
        subst h
        refine ⟨by simp [hl], ?_, ?_, ?_⟩
        · intro buf acts hop
          unfold honestB at hh
          rw [hop] at hh
          simp only [Bool.and_eq_true, List.any_eq_true] at hh
          obtain ⟨⟨o, ho, h1⟩, h2⟩ := hh
          cases o with
          | interest n lt =>
            simp only [decide_eq_true_eq] at h1
            subst h1
            exact ⟨e.name, lt, e.segs, by rw [hg]; exact ho, fetched_of hl h2⟩
          | _ => simp at h1
        · rw [hg, hst]
          have : e.who.val < ss.length := (List.getElem?_eq_some_iff.mp hs).1
          simp [gfun, this]
        · intro j hj
          have : e.who.val ≠ j.val := fun h => hj (Fin.ext h.symm)
          simp [gfun, List.getElem?_set_ne this]
      · simp at h
    · simp at h

/-- The events as a function, the last one repeated. -/
def gwho {k : Nat} (es : List (GEv k)) (d : Fin k) (n : Nat) : Fin k := ((es[n]?).map GEv.who).getD d
def gwhat {k : Nat} (es : List (GEv k)) (n : Nat) : Full.Op := ((es[n]?).map GEv.what).getD .fireStore

/-- The states as a function. -/
def gat {k : Nat} (cfg : Fin k → Cfg) (sts : List (List Full)) (n : Nat) : Fin k → Full := gfun cfg ((sts[n]?).getD [])

theorem gorder_sound {k : Nat} {cfg : Fin k → Cfg} : ∀ (es : List (GEv k)) {ss : List Full} {sts : List (List Full)},
    gorder cfg ss es = some sts → sts.length = es.length + 1 ∧ sts[0]? = some ss ∧
      ∀ n (e : GEv k), es[n]? = some e → ∃ a b, sts[n]? = some a ∧ sts[n + 1]? = some b ∧ gstep cfg a e = some b := by
  intro es
  induction es with
  | nil => intro ss sts h; simp only [gorder, Option.some.injEq] at h; subst h; simp
  | cons e es ih =>
    intro ss sts h
    simp only [gorder] at h
    cases hs : gstep cfg ss e with
    | none => simp [hs] at h
    | some ss' =>
      simp only [hs, Option.map_eq_some_iff] at h
      obtain ⟨l, hl, rfl⟩ := h
      obtain ⟨h1, h2, h3⟩ := ih hl
      refine ⟨by simp [h1], by simp, ?_⟩
      intro n e' he
      cases n with
      | zero =>
        simp only [List.getElem?_cons_zero, Option.some.injEq] at he
        subst he
        exact ⟨ss, ss', by simp, by simpa using h2, hs⟩
      | succ n =>
        simp only [List.getElem?_cons_succ] at he ⊢
        exact h3 n e' he

theorem allGet_sound : ∀ {l : List (Res Full)} {ss : List Full}, allGet l = some ss → l = ss.map .ok := by
  intro l
  induction l with
  | nil => intro ss h; simp only [allGet, Option.some.injEq] at h; subst h; rfl
  | cons x l ih =>
    intro ss h
    cases x with
    | ok s =>
      simp only [allGet, Option.map_eq_some_iff] at h
      obtain ⟨l', h1, rfl⟩ := h
      simp [ih h1]
    | _ => simp [allGet] at h

theorem grun_sound {k : Nat} {cfg : Fin k → Cfg} {es : List (GEv k)} {sts : List (List Full)} (h : grun cfg es = some sts)
    (d : Fin k) : GRun cfg (gat cfg sts) (gwho es d) (gwhat es) es.length := by
  unfold grun at h
  rw [Option.bind_eq_some_iff] at h
  obtain ⟨ss, h1, h2⟩ := h
  have h3 := allGet_sound h1
  have hl : ss.length = k := by
    have := congrArg List.length h3
    simpa using this.symm
  obtain ⟨h4, h5, h6⟩ := gorder_sound es h2
  have len : ∀ (n : Nat) (a : List Full), sts[n]? = some a → a.length = k := by
    intro n
    induction n with
    | zero => intro a ha; rw [h5, Option.some.injEq] at ha; subst ha; exact hl
    | succ n ih =>
      intro a ha
      have hn := (List.getElem?_eq_some_iff.mp ha).1
      obtain ⟨e, he⟩ : ∃ e, es[n]? = some e := ⟨_, List.getElem?_eq_getElem (by omega)⟩
      obtain ⟨x, y, e1, e2, e3⟩ := h6 n e he
      rw [e2, Option.some.injEq] at ha
      subst ha
      exact (gstep_sound (ih x e1) e3).1
  refine ⟨fun i => ?_, fun n hn => ?_⟩
  · have := congrArg (·[i.val]?) h3
    simp only [List.getElem?_map] at this
    rw [List.getElem?_eq_getElem (l := List.finRange k) (by simp)] at this
    have hi : ss[i.val]? = some ss[i.val] := List.getElem?_eq_getElem (by omega)
    rw [hi] at this
    simp only [List.getElem_finRange, Option.map_some, Option.some.injEq, Fin.cast_mk, Fin.eta] at this
    rw [this]
    simp [gat, gfun, h5, hi]
  · obtain ⟨e, he⟩ : ∃ e, es[n]? = some e := ⟨_, List.getElem?_eq_getElem hn⟩
    obtain ⟨x, y, e1, e2, e3⟩ := h6 n e he
    have := (gstep_sound (len n x e1) e3).2
    simp only [gwho, gwhat, gat, he, e1, e2, Option.map_some, Option.getD_some]
    exact this

end PSync
