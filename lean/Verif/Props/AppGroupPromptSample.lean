import Verif.Props.AppGroupPrompt
/-!
A concrete run of two full-sync example programs in which packets take no time.
-/
namespace PSync
open Spec

/-- Two programs; the first publishes stream /a once, the second stream /b once. -/
def promptApps (i : Fin 2) : PubAppCfg :=
  { pc := promptCfg i, stream := fun _ => if i = 0 then pA else pB, num := 1, maxPublish := 1, delay := fun _ => 300 * i.val + 5 }

/-- The timers of a program. -/
def appsDue (i : Fin 2) (s : FullApp) : List (Nat × AEv 2) :=
  s.timers.map (fun e => (e.1, ⟨i, .update, [], [], []⟩)) ++ (dueOf i s.prod).map (fun e => (e.1, ⟨i, .prod e.2.what, [], [], []⟩))

def appsFirst (l : List (Nat × AEv 2)) : Option (Nat × AEv 2) :=
  l.foldl (fun b x => match b with | none => some x | some y => if x.1 < y.1 then some x else some y) none

/-- As `promptReact`, for programs. -/
def appsReact (cfg : Fin 2 → PubAppCfg) (i : Fin 2) (old new : List FullApp) : Nat → List (AEv 2)
  | 0 => []
  | fuel + 1 =>
    match asksIn (newOutput (appsFun cfg old i).prod (appsFun cfg new i).prod) with
    | [] => []
    | n :: _ =>
      let e : AEv 2 := { who := 1 - i, what := .prod (.recvInterest ⟨n, 10000, 7⟩) }
      let next := (appsStep cfg new e).getD new
      match dataOf (newOutput (appsFun cfg new (1 - i)).prod (appsFun cfg next (1 - i)).prod) with
      | [] => [e]
      | d :: _ =>
        let e' : AEv 2 := { who := i, what := .prod (.complete d.content []), name := n, base := List.dropLast d.name, segs := [d] }
        e :: e' :: appsReact cfg i next ((appsStep cfg next e').getD next) fuel

/-- The clocks move to `t`, all timers run, and packets take no time. -/
def appsPrompt (cfg : Fin 2 → PubAppCfg) (t : Nat) : Nat → List FullApp → List (AEv 2)
  | 0, _ => []
  | fuel + 1, ss =>
    let go : Nat → List (AEv 2) := fun d => [{ who := 0, what := .prod (.tick d) }, { who := 1, what := .prod (.tick d) }]
    match appsFirst (appsDue 0 (appsFun cfg ss 0) ++ appsDue 1 (appsFun cfg ss 1)) with
    | some (d, e) =>
      if d ≤ t then
        let ss1 := (go d).foldl (fun ss e => (appsStep cfg ss e).getD ss) ss
        let ss2 := (appsStep cfg ss1 e).getD ss1
        let es : List (AEv 2) := appsReact cfg e.who ss1 ss2 5
        go d ++ e :: es ++ appsPrompt cfg t fuel (es.foldl (fun ss e => (appsStep cfg ss e).getD ss) ss2)
      else go t
    | none => go t

def promptAppsList : List (AEv 2) :=
  appsPrompt promptApps 140400 600 ((appsAll ((List.finRange 2).map (fun i => FullApp.init (promptApps i)))).getD [])

/-- The run of the producers inside the programs. -/
def asGroupEvents (cfg : Fin 2 → PubAppCfg) (sts : List (List FullApp)) (es : List (AEv 2)) : List (GEv 2) :=
  (List.range es.length).map (fun n => ⟨appsWho es 0 n, producerEvent (appsAt cfg sts) (appsWho es 0) (appsWhat es) n,
    ((es[n]?).map AEv.name).getD [], ((es[n]?).map AEv.base).getD [], ((es[n]?).map AEv.segs).getD []⟩)

def asGroupStates (sts : List (List FullApp)) : List (List Full) := sts.map (·.map FullApp.prod)

theorem gat_asGroup (cfg : Fin 2 → PubAppCfg) (sts : List (List FullApp)) (n : Nat) :
    gat (options cfg) (asGroupStates sts) n = producers (appsAt cfg sts n) := by
  unfold gat appsAt asGroupStates
  rw [appsFun_prod, List.getElem?_map]
  cases sts[n]? <;> rfl

theorem appsPrompt_of {cfg : Fin 2 → PubAppCfg} {sts : List (List FullApp)} {es : List (AEv 2)} {t : Nat}
    (h : promptB (options cfg) (asGroupStates sts) (asGroupEvents cfg sts es) t = true) :
    Prompt 0 (fun n => producers (appsAt cfg sts n)) (appsWho es 0) (producerEvent (appsAt cfg sts) (appsWho es 0) (appsWhat es)) t
      es.length := by
  have h1 := prompt_of h
  have hl : (asGroupEvents cfg sts es).length = es.length := by simp [asGroupEvents]
  rw [hl] at h1
  rw [← Nat.zero_add t, ← Nat.zero_add es.length]
  refine Spec.Prompt.shift (m := 0) (g := gat (options cfg) (asGroupStates sts)) (fun n _ => ?_) (fun n hn => ?_) h1
  · rw [Nat.zero_add, gat_asGroup]
  · rw [Nat.zero_add]
    have : (asGroupEvents cfg sts es)[n]? = some ⟨appsWho es 0 n, producerEvent (appsAt cfg sts) (appsWho es 0) (appsWhat es) n,
        ((es[n]?).map AEv.name).getD [], ((es[n]?).map AEv.base).getD [], ((es[n]?).map AEv.segs).getD []⟩ := by
      unfold asGroupEvents
      rw [List.getElem?_map, List.getElem?_range hn]
      rfl
    simp [gwho, gwhat, this]

def appsClocksB (cfg : Fin 2 → PubAppCfg) (sts : List (List FullApp)) (es : List (AEv 2)) : Bool :=
  (List.range es.length).all (fun n => match appsWhat es n with
    | .prod (.tick _) => true
    | _ => decide ((appsAt cfg sts n 0).prod.now = (appsAt cfg sts n 1).prod.now))

theorem appsClocks_of {cfg : Fin 2 → PubAppCfg} {sts : List (List FullApp)} {es : List (AEv 2)} (h : appsClocksB cfg sts es = true) :
    ∀ n < es.length, (∀ t, appsWhat es n ≠ .prod (.tick t)) → ∀ i j, (appsAt cfg sts n i).prod.now ≤ (appsAt cfg sts n j).prod.now + 0 := by
  intro n hn hw i j
  unfold appsClocksB at h
  rw [List.all_eq_true] at h
  have := h n (List.mem_range.mpr hn)
  have he : (appsAt cfg sts n 0).prod.now = (appsAt cfg sts n 1).prod.now := by
    split at this
    · rename_i t hop
      exact absurd hop (hw t)
    · simpa using this
  match i, j with
  | 0, 0 => omega
  | 0, 1 => omega
  | 1, 0 => omega
  | 1, 1 => omega

def inTimeB (cfg : Fin 2 → PubAppCfg) (sts : List (List FullApp)) (len : Nat) : Bool :=
  (List.range (len + 1)).all (fun n => [(0 : Fin 2), 1].all (fun i =>
    (appsAt cfg sts n i).timers.all (fun e => decide ((appsAt cfg sts n i).prod.now ≤ e.1))))

theorem inTime_of {cfg : Fin 2 → PubAppCfg} {sts : List (List FullApp)} {len : Nat} (h : inTimeB cfg sts len = true) :
    UpdatesInTime 0 (appsAt cfg sts) len := by
  intro n hn i e he
  unfold inTimeB at h
  simp only [List.all_eq_true, decide_eq_true_eq] at h
  exact h n (List.mem_range.mpr (by omega)) i (by match i with | 0 => simp | 1 => simp) e he

set_option maxRecDepth 100000 in
theorem promptApps_run : (appsRuns promptApps promptAppsList).map (fun sts =>
    decide ((appsAt promptApps sts 240 0).prod.made = [(pA, 1)]) && decide ((appsAt promptApps sts 240 1).prod.made = [(pB, 1)]) &&
    decide (((appsAt promptApps sts 240 0).prod.replies.map (·.2.1.length)).all (· < 1000)) &&
    decide (((appsAt promptApps sts 240 1).prod.replies.map (·.2.1.length)).all (· < 1000)) &&
    decide ((appsAt promptApps sts 240 0).prod.replies.length < 1000) && decide ((appsAt promptApps sts 240 1).prod.replies.length < 1000) &&
    promptB (options promptApps) (asGroupStates sts) (asGroupEvents promptApps sts promptAppsList) 0 &&
    appsClocksB promptApps sts promptAppsList && inTimeB promptApps sts 240 &&
    decide ((appsAt promptApps sts 0 0).prod.now = 0) && decide ((appsAt promptApps sts 0 1).prod.now = 0) &&
    decide ((appsAt promptApps sts 240 0).prod.now = 140400) && decide ((appsAt promptApps sts 240 1).prod.now = 140400) &&
    decide ((appsAt promptApps sts 240 0).printed = [(pB, 1)]) && decide ((appsAt promptApps sts 240 1).printed = [(pA, 1)]) &&
    decide ((appsAt promptApps sts 0 0).printed = []))
    = some true := by decide +kernel

theorem promptApps_length : promptAppsList.length = 240 := by decide +kernel

theorem promptApps_own : OwnStreams promptApps :=
  ⟨duoApps_own.once, duoApps_own.own⟩

set_option maxRecDepth 4000 in
/-- Non-vacuity for C84: a run of two programs that meets all hypotheses; each prints what the other publishes. -/
theorem c84_sample : ∃ (a : Nat → Fin 2 → FullApp) (who : Nat → Fin 2) (what : Nat → FullApp.Op),
    IsGroup (options promptApps) ∧ OwnStreams promptApps ∧ ARun promptApps a who what 240 ∧
    Sane (options promptApps) (producers (a 240)) ∧
    (∀ i, NoCollisionsIn (promptApps i).pc.expected (PublishedBy (producers (a 240)))) ∧
    (∀ i j, (promptApps i).pc.freshness = (promptApps j).pc.freshness) ∧
    (∀ j, 1 ≤ (promptApps j).maxPublish) ∧ (∀ j, (promptApps j).maxPublish < 2 ^ 64) ∧ totalUpdates promptApps = 2 ∧
    (∀ i, 2 * 0 + (promptApps i).pc.lag < 90) ∧
    (∀ n < 240, (∀ t, what n ≠ .prod (.tick t)) → ∀ i j, (a n i).prod.now ≤ (a n j).prod.now + 0) ∧
    (∀ i k, (promptApps i).delay k ≤ 305) ∧ UpdatesInTime 0 a 240 ∧
    Prompt 0 (fun n => producers (a n)) who (producerEvent a who what) 0 240 ∧
    (∀ i, (promptApps i).pc.lifetime / 2 + (promptApps i).pc.freshness + 1000 + 2 * (promptApps i).pc.lag ≤ 7000) ∧
    (∀ i, (a 0 i).prod.now ≤ 305) ∧ (∀ i, (promptApps i).maxPublish.toNat * (305 + 0) + 0 ≤ 305) ∧
    (∀ i, 305 + (2 * (Fintype.card (Fin 2) * totalUpdates promptApps) + 2) * (2 * 7000 + 0 + 0) < (a 240 i).prod.now) ∧
    pB ∈ (promptApps 1).streams ∧ (a 0 0).printed = [] ∧ (a 240 0).printed = [(pB, 1)] ∧ (a 240 1).printed = [(pA, 1)] := by
  obtain ⟨sts, h1, h2⟩ := Option.of_map promptApps_run
  simp only [Bool.and_eq_true, decide_eq_true_eq] at h2
  obtain ⟨⟨⟨⟨⟨⟨⟨⟨⟨⟨⟨⟨⟨⟨⟨m0, m1⟩, s0⟩, s1⟩, l0⟩, l1⟩, hpr⟩, hc⟩, hin⟩, c0⟩, c1⟩, d0⟩, d1⟩, n0⟩, n1⟩, p0⟩ := h2
  have hl := promptApps_length
  have hrun := (appsRuns_sound h1 0).1
  have hclock := appsClocks_of hc
  have hprompt := appsPrompt_of hpr
  rw [hl] at hrun hclock hprompt
  have htotal : totalUpdates promptApps = 2 := by decide
  have hsane : Sane duoCfg (producers (appsAt promptApps sts 240)) := by
    refine sane_duo (made_valid ?_) (made_valid ?_) (short_of s0) (short_of s1) l0 l1 <;> simp only [producers]
    · rw [m0]; simp
    · rw [m1]; simp
  refine ⟨appsAt promptApps sts, appsWho promptAppsList 0, appsWhat promptAppsList,
    ⟨fun _ _ => ⟨rfl, rfl, rfl, rfl⟩, fun i => ⟨(duoCfg_group.wf i).jitter_lo, (duoCfg_group.wf i).jitter_hi,
      none_lossless, none_lossless⟩, fun i => duoCfg_group.expected i⟩, promptApps_own, hrun,
    ⟨⟨hsane.names, hsane.buffers, hsane.version_lt⟩, hsane.versions⟩, fun i => ?_, fun _ _ => rfl, fun _ => by simp [promptApps],
    fun _ => by simp [promptApps], htotal, by decide, hclock, fun i k => ?_, inTime_of hin, hprompt, by decide,
    fin2_forall.mpr ⟨by omega, by omega⟩, by decide, ?_, by decide, p0, n0, n1⟩
  · refine noCollisionsIn_list (ps := [(pA, 1), (pB, 1)]) ?_ (by decide) (by decide +kernel) (by decide +kernel) _
    rintro p q ⟨j, hj⟩
    simp only [producers] at hj
    match j with
    | 0 => rw [m0] at hj; rw [List.mem_singleton.mp hj]; simp
    | 1 => rw [m1] at hj; rw [List.mem_singleton.mp hj]; simp
  · have := i.isLt
    simp only [promptApps]
    omega
  · rw [htotal]; exact fin2_forall.mpr ⟨by rw [d0]; decide, by rw [d1]; decide⟩

end PSync
