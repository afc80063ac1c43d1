import Verif.Proofs.Flow
import Verif.Proofs.Acts
import Verif.Spec.AskRate
/-!
How many sync Interests a FullProducer sends.
-/
namespace PSync
open Spec
namespace Full

theorem askCount_append (a b : List Out) : askCount (a ++ b) = askCount a + askCount b := List.countP_append

theorem askCount_data (ds : List Data) : askCount (ds.map Out.data) = 0 := by
  unfold askCount
  rw [List.countP_eq_zero]
  intro o ho
  obtain ⟨d, _, rfl⟩ := List.mem_map.1 ho
  simp

/-- The Interests sent so far. -/
def asks (s : Full) : Nat := askCount s.log

theorem sendSyncInterest_asks {cfg : Cfg} {s s' : Full} (h : sendSyncInterest cfg s = .ok s') : asks s' ≤ asks s + 1 := by
  unfold asks
  rcases sendSyncInterest_ok h with ⟨_, rfl⟩ | ⟨_, name, hn, ⟨_, _, rfl⟩ | ⟨_, rfl⟩⟩
  · omega
  · simp only [stopFetcher]; omega
  · simp only [askCount_append]
    exact Nat.add_le_add_left (by simp [askCount]) _

theorem sendSyncData_asks {cfg : Cfg} {s s' : Full} {name : Name} {c : Bytes} {fr : Nat}
    (h : sendSyncData cfg s name c fr = .ok s') : asks s' ≤ asks s + 1 := by
  unfold sendSyncData at h
  simp only [Res.bind_eq_ok] at h
  obtain ⟨buf, _, s1, h1, h2⟩ := h
  have h0 : asks s1 = asks s := by
    obtain ⟨r, _, rfl⟩ := publish_ok h1
    unfold asks
    simp only [askCount_append, askCount_data]
    split <;> rfl
  split at h2
  · have := sendSyncInterest_asks h2
    omega
  · cases h2; omega

/-- Effect of handling an Interest. -/
inductive Asking (i : Interest) (t : Bool) (s s' : Full) : Prop
  | nothing : asks s' = asks s → s'.pending = s.pending → s'.waiting = s.waiting → Asking i t s s'
  | waits : t = false → asks s' = asks s → s'.pending = s.pending →
      s'.waiting = s.waiting.set i.name ⟨0, i.nonce⟩ → Asking i t s s'
  | parks (e : FPending) : asks s' = asks s → s'.pending = s.pending.set i.name e →
      s'.waiting = (if t then (s.markWaiting i.name).waiting else s.waiting) → Asking i t s s'
  | marks : asks s' ≤ asks s + 1 → s'.pending.length ≤ s.pending.length →
      s'.waiting = (s.markWaiting i.name).waiting → Asking i t s s'

theorem markWaiting_asks (s : Full) (n : Name) : asks (s.markWaiting n) = asks s ∧ (s.markWaiting n).pending = s.pending := by
  rw [markWaiting_eq]; exact ⟨rfl, rfl⟩

theorem onUndecodable_asking {cfg : Cfg} {s s' : Full} {i : Interest} {t : Bool} {n : Nat} {d : IBLTDiff}
    (h : onUndecodable cfg s i t n d = .ok s') : Asking i t s s' := by
  unfold onUndecodable at h
  split at h
  · unfold waitOrGiveUp at h
    cases hw : s.waiting.find i.name with
    | none =>
      simp only [hw] at h
      cases t with
      | true => simp only [Bool.not_true, Bool.false_eq_true, if_false, Res.ok.injEq] at h; subst h; exact .nothing rfl rfl rfl
      | false =>
        simp only [Bool.not_false, if_true, Res.ok.injEq] at h
        subst h
        rw [scheduleProcess_eq]
        exact .waits rfl rfl rfl rfl
    | some w =>
      simp only [hw] at h
      cases t with
      | false => simp only [Bool.false_eq_true, if_false, Res.ok.injEq] at h; subst h; exact .nothing rfl rfl rfl
      | true =>
        simp only [if_true] at h
        obtain ⟨k1, k2⟩ := markWaiting_asks s i.name
        by_cases hgt : w.numTries > 1
        · simp only [hgt, if_true] at h
          have hc := sendSyncInterest_core h
          have ha := sendSyncInterest_asks h
          exact .marks (by omega) (by rw [hc.pending, k2]) hc.waiting
        · simp only [hgt, if_false, Res.ok.injEq] at h
          subst h; exact .nothing rfl rfl rfl
  · split at h
    · cases h; exact .nothing rfl rfl rfl
    · simp only at h
      split at h
      · cases h
        obtain ⟨h1, h2⟩ := markWaiting_asks s i.name
        exact .marks (by omega) (by rw [h2]) rfl
      · simp only [Res.bind_eq_ok, Res.ok.injEq] at h
        obtain ⟨s1, h1, rfl⟩ := h
        have hc := sendSyncData_core h1
        have h2 := sendSyncData_asks h1
        obtain ⟨k1, k2⟩ := markWaiting_asks (s1.deletePending i.name) i.name
        refine .marks ?_ ?_ (markWaiting_congr (s := s) (s1 := s1.deletePending i.name) hc.waiting _)
        · rw [k1]; exact h2
        · rw [k2]
          simp only [deletePending, hc.pending]
          exact NMap.length_erase_le _ _

theorem onDecoded_asking {cfg : Cfg} {s s' : Full} {i : Interest} {t : Bool} {ib : Table}
    {d : IBLTDiff} (h : onDecoded cfg s i t ib d = .ok s') : Asking i t s s' := by
  unfold onDecoded at h
  split at h
  · simp only [Res.ok.injEq] at h
    subst h
    cases t with
    | false => exact .parks _ rfl rfl rfl
    | true =>
      simp only [if_true]
      generalize hx : ({ s with pending := s.pending.set i.name ⟨((s.pending.find i.name).getD ⟨ib, 0⟩).iblt, s.now + i.lifetime⟩ } : Full) = x
      obtain ⟨k1, k3⟩ := markWaiting_asks x i.name
      subst hx
      refine .parks _ k1 k3 ?_
      rw [if_pos rfl]
      have hmc := fun (x : Full) (h : x.waiting = s.waiting) => markWaiting_congr (s := s) (s1 := x) h i.name
      exact hmc _ rfl
  · split at h
    · simp only [Res.ok.injEq] at h
      subst h
      unfold waitOrGiveUp
      cases hw : s.waiting.find i.name with
      | none =>
        simp only
        cases t with
        | true => exact .nothing rfl rfl rfl
        | false =>
          simp only [Bool.not_false, if_true]
          rw [scheduleProcess_eq]
          exact .waits rfl rfl rfl rfl
      | some w =>
        simp only
        cases t with
        | false => exact .nothing rfl rfl rfl
        | true =>
          simp only [if_true]
          split
          · obtain ⟨h1, h2⟩ := markWaiting_asks s i.name
            exact .marks (by simp only; omega) (by simp only [h2]; exact Nat.le_refl _) rfl
          · exact .nothing rfl rfl rfl
    · generalize collect d.negative s.base d.positive [] = x at h
      obtain ⟨content, b⟩ := x
      simp only at h
      split at h
      · cases h; exact .nothing rfl rfl rfl
      · simp only [Res.bind_eq_ok, Res.ok.injEq] at h
        obtain ⟨s1, h1, rfl⟩ := h
        have hc := sendSyncData_core h1
        have h2 := sendSyncData_asks h1
        obtain ⟨k1, k2⟩ := markWaiting_asks s1 i.name
        refine .marks ?_ ?_ (markWaiting_congr (s := s) hc.waiting _)
        · rw [k1]; exact h2
        · rw [k2, hc.pending]

theorem onSyncInterest_asking {cfg : Cfg} {s s' : Full} {i : Interest} {t : Bool}
    (h : onSyncInterest cfg s i t = .ok s') : Asking i t s s' := by
  rcases onSyncInterest_cases h with ⟨d, hd, rfl⟩ | ⟨_, ⟨d, h4, _, rfl⟩ | rfl | ⟨c2, c1, num, ib, df, _, _, _, _, _, _, h1⟩⟩
  · exact .nothing (by unfold asks emit; rw [askCount_append]; rfl) rfl rfl
  · exact .nothing (by unfold asks emit; rw [askCount_append]; rfl) rfl rfl
  · exact .nothing rfl rfl rfl
  · rcases h1 with ⟨_, h1⟩ | ⟨_, h1⟩
    · exact onUndecodable_asking h1
    · exact onDecoded_asking h1

theorem Asking.asks_le {i : Interest} {t : Bool} {s s' : Full} (h : Asking i t s s') : asks s' ≤ asks s + 1 := by
  cases h with
  | nothing h1 => omega
  | waits _ h1 => omega
  | parks e h1 => omega
  | marks h1 => exact h1

/-- The potential: Interests sent, Interests parked, Interests delayed and not dealt with. -/
def askDue (s : Full) : Nat := asks s + s.pending.length + unmarked s.waiting

theorem Asking.received {i : Interest} {s s' : Full} (h : Asking i false s s') (hs : s.waiting.Sorted)
    (hp : s.pending.Sorted) : askDue s' ≤ askDue s + 1 := by
  unfold askDue
  have hu := unmarked_erase hs i.name
  cases h with
  | nothing h1 h2 h3 => rw [h1, h2, h3]; omega
  | waits h0 h1 h2 h3 =>
    rw [h1, h2, h3, unmarked_set hs]
    split <;> omega
  | parks e h1 h2 h3 =>
    have := length_park hp i.name e
    rw [h1, h2, h3]
    simp only [Bool.false_eq_true, if_false]
    omega
  | marks h1 h2 h3 => rw [h3, unmarked_mark hs]; omega

theorem Asking.retried {i : Interest} {s s' : Full} (h : Asking i true s s') (hs : s.waiting.Sorted) (hp : s.pending.Sorted) :
    asks s' + s'.pending.length + unmarked s'.waiting ≤ asks s + s.pending.length + unmarked (s.waiting.erase i.name) + 1 := by
  have hu := unmarked_le hs i.name
  cases h with
  | nothing h1 h2 h3 => rw [h1, h2, h3]; omega
  | waits h0 => cases h0
  | parks e h1 h2 h3 =>
    have := length_park hp i.name e
    rw [h1, h2, h3, if_pos rfl, unmarked_mark hs]
    omega
  | marks h1 h2 h3 => rw [h3, unmarked_mark hs]; omega

theorem processOne_askDue {cfg : Cfg} {s s' : Full} {n : Name} (hs : s.waiting.Sorted) (hp : s.pending.Sorted)
    (h : processOne cfg s n = .ok s') : askDue s' ≤ askDue s ∧ s'.waiting.Sorted ∧ s'.pending.Sorted := by
  unfold processOne at h
  cases hw : s.waiting.find n with
  | none =>
    simp only [hw, Res.ok.injEq] at h
    subst h
    exact ⟨Nat.le_refl _, hs, hp⟩
  | some w =>
    simp only [hw] at h
    split at h
    · cases h
      refine ⟨?_, NMap.sorted_erase hs _, hp⟩
      have := unmarked_erase hs n
      unfold askDue
      simp only [asks]
      omega
    · rename_i hmax
      simp only [Res.bind_eq_ok] at h
      obtain ⟨s1, h1, h2⟩ := h
      generalize hs0 : ({ s with waiting := s.waiting.set n { w with numTries := w.numTries + 1 } } : Full) = s0 at h1
      have hw0 : s0.waiting = s.waiting.set n { w with numTries := w.numTries + 1 } := by rw [← hs0]
      have hp0 : s0.pending = s.pending := by rw [← hs0]
      have hd0 : asks s0 = asks s := by rw [← hs0]; rfl
      have hsort : s0.waiting.Sorted := by rw [hw0]; exact NMap.sorted_set hs _ _
      have c1 := (onSyncInterest_asking h1).retried hsort (hp0 ▸ hp)
      have hh := onSyncInterest_handled h1
      have hsort1 := hh.sorted hsort
      have hsort2 := hh.psorted (hp0 ▸ hp)
      have c3 : unmarked (s0.waiting.erase n) + 1 = unmarked s.waiting := by
        have e1 := unmarked_find hs hw
        rw [if_neg hmax] at e1
        have e2 : s0.waiting.erase n = s.waiting.erase n := by
          apply NMap.ext (NMap.sorted_erase hsort n) (NMap.sorted_erase hs n)
          intro k
          rw [NMap.find_erase, NMap.find_erase, hw0, NMap.find_set]
          split <;> rfl
        rw [e2, e1]
      have c4 : askDue s1 ≤ askDue s := by
        unfold askDue
        simp only at c1
        rw [hd0, hp0] at c1
        omega
      cases hw2 : s1.waiting.find n with
      | none =>
        simp only [hw2, Res.ok.injEq] at h2
        subst h2
        exact ⟨c4, hsort1, hsort2⟩
      | some w2 =>
        simp only [hw2] at h2
        split at h2
        · cases h2
          refine ⟨?_, NMap.sorted_erase hsort1 _, hsort2⟩
          have := unmarked_erase hsort1 n
          refine Nat.le_trans ?_ c4
          unfold askDue
          simp only [asks]
          omega
        · cases h2
          exact ⟨c4, hsort1, hsort2⟩

theorem processWaiting_askDue {cfg : Cfg} {s s' : Full} (hs : s.waiting.Sorted) (hp : s.pending.Sorted)
    (h : processWaiting cfg s = .ok s') : askDue s' ≤ askDue s :=
  (foldRes_inv (P := fun a : Full => askDue a ≤ askDue s ∧ a.waiting.Sorted ∧ a.pending.Sorted) _
    (fun a _ b _ ⟨h1, h2, h3⟩ h4 => by
      obtain ⟨k1, k2, k3⟩ := processOne_askDue h2 h3 h4
      exact ⟨k1.trans h1, k2, k3⟩) ⟨Nat.le_refl _, hs, hp⟩ h).1

theorem satisfyLoop_askDue {cfg : Cfg} {u : Name} (es : List (Name × FPending)) : ∀ {s s' : Full}, s.pending = es →
    s.pending.Sorted → foldRes (satisfyOne cfg u) s es = .ok s' → askDue s' ≤ askDue s := by
  induction es with
  | nil =>
    intro s s' _ _ h
    simp only [foldRes, Res.ok.injEq] at h
    subst h
    exact Nat.le_refl _
  | cons e es ih =>
    intro s s' hes hp h
    simp only [foldRes, Res.bind_eq_ok] at h
    obtain ⟨s1, h1, h2⟩ := h
    have hp1 : s.pending.erase e.1 = es := by
      have hpw := hp
      rw [hes] at hpw ⊢
      unfold NMap.Sorted at hpw
      rw [List.pairwise_cons] at hpw
      unfold NMap.erase
      rw [List.filter_cons]
      simp only [ne_eq, not_true_eq_false, decide_false, Bool.false_eq_true, if_false]
      apply List.filter_eq_self.2
      intro y hy
      rw [decide_eq_true_eq]
      intro hye
      have := hpw.1 y hy
      rw [hye, Name.lt_irrefl] at this
      cases this
    unfold satisfyOne at h1
    simp only [Res.bind_eq_ok, Res.ok.injEq] at h1
    obtain ⟨d, _, s0, h4, rfl⟩ := h1
    have hc := sendSyncData_core h4
    have ha := sendSyncData_asks h4
    have hpe : (s0.deletePending e.1).pending = es := by simp only [deletePending, hc.pending]; exact hp1
    have hsd : (s0.deletePending e.1).pending.Sorted := by
      simp only [deletePending, hc.pending]; exact NMap.sorted_erase hp _
    refine (ih hpe hsd h2).trans ?_
    have hw : (s0.deletePending e.1).waiting = s.waiting := hc.waiting
    have hd : asks (s0.deletePending e.1) = asks s0 := rfl
    unfold askDue
    rw [hpe, hw, hd, hes, List.length_cons]
    omega

theorem call_askDue {cfg : Cfg} {s s' : Full} {c : Call} (hp : s.pending.Sorted) (h : call cfg s c = .ok s') : askDue s' ≤ askDue s := by
  cases c with
  | addUserNode p =>
    simp only [call, Res.ok.injEq] at h
    subst h
    exact Nat.le_refl _
  | removeUserNode p =>
    simp only [call, Res.bind_eq_ok, Res.ok.injEq] at h
    obtain ⟨b, h1, rfl⟩ := h
    exact Nat.le_refl _
  | publishName p q =>
    simp only [call, publishName] at h
    split at h
    · cases h; exact Nat.le_refl _
    · rename_i cur _
      simp only [Res.bind_eq_ok] at h
      obtain ⟨b, _, h2⟩ := h
      exact satisfyLoop_askDue (s := { s with base := b, waitOut := false, made := s.made ++ [(p, newSeq q cur)] }) _ rfl hp h2

theorem calls_askDue {cfg : Cfg} {s s' : Full} {cs : List Call} (hp : s.pending.Sorted)
    (h : foldRes (call cfg) s cs = .ok s') : askDue s' ≤ askDue s :=
  (foldRes_inv (P := fun a : Full => askDue a ≤ askDue s ∧ a.pending.Sorted) _
    (fun _ _ _ _ ⟨h1, h2⟩ h4 => ⟨(call_askDue h2 h4).trans h1, (call_shrunk h4).psorted h2⟩) ⟨Nat.le_refl _, hp⟩ h).1

theorem deletePending_askDue (s : Full) (n : Name) : askDue (s.deletePending n) ≤ askDue s := by
  unfold askDue deletePending
  have := NMap.length_erase_le s.pending n
  simp only [asks]
  omega

theorem step_askDue {cfg : Cfg} {s s' : Full} {op : Op} (hl : Lists cfg s) (h : step cfg s op = .ok s') :
    askDue s' ≤ askDue s + (if fullAccepts cfg op then 1 else 0) + (if fires s op then 1 else 0) := by
  cases op with
  | call c => exact call_askDue hl.psorted h
  | recvInterest i =>
    simp only [step] at h
    split at h
    · rename_i hp
      rw [if_pos (show fullAccepts cfg (.recvInterest i) = true from hp)]
      exact (onSyncInterest_asking h).received hl.sorted hl.psorted
    · cases h; omega
  | segment f =>
    simp only [step] at h
    split at h
    · cases h
      split <;> exact Nat.le_refl _
    · cases h; exact Nat.le_refl _
  | complete buf acts =>
    simp only [step] at h
    split at h
    · rename_i f _
      split at h
      · unfold onSyncData at h
        simp only at h
        have hsh : Shrunk s (s.stopFetcher.deletePending f.name) :=
          ((Shrunk.refl s).congr rfl rfl rfl : Shrunk s s.stopFetcher).delete _
        have hfl : askDue (s.stopFetcher.deletePending f.name) ≤ askDue s := deletePending_askDue s.stopFetcher f.name
        split at h
        · cases h; exact hfl
        · simp only [Res.bind_eq_ok] at h
          obtain ⟨r, h1, h2⟩ := h
          split at h2
          · cases h2; exact hfl
          · simp only [Res.bind_eq_ok] at h2
            obtain ⟨s1, h3, h4⟩ := h2
            generalize hx : (({ s.stopFetcher.deletePending f.name with base := r.2 } : Full).emit (.update r.1)) = x at h3
            have hx1 : Shrunk s x := by rw [← hx]; exact hsh.congr rfl rfl rfl
            have hx2 : askDue x = askDue (s.stopFetcher.deletePending f.name) := by
              rw [← hx]
              unfold askDue asks emit
              simp only [askCount_append]
              rfl
            have hxl := hx1.lists hl
            have k1 := calls_askDue hxl.psorted h3
            have hl1 := (calls_shrunk h3).lists hxl
            have j1 := processWaiting_askDue (s := { s1 with
              sched := some (s1.now + cfg.jitter s1.draws, .renew)
              draws := s1.draws + 1
              waitOut := false }) hl1.sorted hl1.psorted h4
            have j3 : askDue s' ≤ askDue s1 := j1
            omega
      · cases h; exact Nat.le_refl _
    · cases h; exact Nat.le_refl _
  | error t =>
    simp only [step] at h
    split at h
    · split at h
      · cases h
        split <;> exact Nat.le_refl _
      · cases h; exact Nat.le_refl _
    · cases h; exact Nat.le_refl _
  | tick t =>
    simp only [step, Res.ok.injEq] at h
    subst h
    split <;> exact Nat.le_refl _
  | fireSync =>
    simp only [step] at h
    split at h
    · rename_i d k hd
      split at h
      · rename_i hdue
        have hf : fires s .fireSync = true := by unfold fires; simp only [hd, hdue, decide_true]
        rw [if_pos hf]
        have key : ∀ x : Full, x.pending = s.pending → x.waiting = s.waiting → x.log = s.log → sendSyncInterest cfg x = .ok s' →
            askDue s' ≤ askDue s + 1 := by
          intro x h1 h2 h3 h
          have hc := sendSyncInterest_core h
          have ha := sendSyncInterest_asks h
          unfold askDue
          have hx : asks x = asks s := by unfold asks; rw [h3]
          rw [hc.pending, hc.waiting, h1, h2]
          omega
        have : askDue s' ≤ askDue s + 1 := by
          split at h
          · exact key { s with sched := none } rfl rfl rfl h
          · exact key { s with sched := none, waitOut := false } rfl rfl rfl h
        omega
      · cases h; omega
    · cases h; omega
  | fireDelay =>
    simp only [step] at h
    split at h
    · split at h
      · simp only [Res.bind_eq_ok, Res.ok.injEq] at h
        obtain ⟨s1, h1, rfl⟩ := h
        have j1 := processWaiting_askDue (s := { s with delayTimer := none }) hl.sorted hl.psorted h1
        rw [scheduleProcess_eq]
        exact j1
      · cases h; exact Nat.le_refl _
    · cases h; exact Nat.le_refl _
  | expire n =>
    simp only [step] at h
    split at h
    · cases h
      split
      · exact deletePending_askDue s n
      · exact Nat.le_refl _
    · cases h; exact Nat.le_refl _
  | fireStore =>
    simp only [step, Res.ok.injEq] at h
    subst h
    exact Nat.le_refl _

/-! ### How often the timer fires -/

/-- The clock stands still, and the timer is as before or at least `g` ms away. -/
def Rearmed (g : Nat) (s s' : Full) : Prop :=
  s'.now = s.now ∧ (s'.sched = s.sched ∨ ∃ d k, s'.sched = some (d, k) ∧ s.now + g ≤ d)

theorem Rearmed.refl (g : Nat) (s : Full) : Rearmed g s s := ⟨rfl, Or.inl rfl⟩

theorem Rearmed.trans {g : Nat} {a b c : Full} (h : Rearmed g a b) (h' : Rearmed g b c) : Rearmed g a c := by
  obtain ⟨h1, h2⟩ := h
  obtain ⟨h3, h4⟩ := h'
  refine ⟨h3.trans h1, ?_⟩
  rcases h4 with h4 | ⟨d, k, h4, h5⟩
  · rw [h4]; exact h2
  · exact Or.inr ⟨d, k, h4, by omega⟩

theorem Rearmed.mono {g g' : Nat} {a b : Full} (h : Rearmed g a b) (hg : g' ≤ g) : Rearmed g' a b :=
  ⟨h.1, h.2.imp id (fun ⟨d, k, h1, h2⟩ => ⟨d, k, h1, by omega⟩)⟩

theorem sendSyncInterest_rearmed {cfg : Cfg} (hwf : cfg.WF) {s s' : Full} (h : sendSyncInterest cfg s = .ok s') :
    Rearmed (cfg.lifetime / 2 + 100) s s' := by
  rcases sendSyncInterest_ok h with ⟨_, rfl⟩ | ⟨_, name, hn, ⟨_, _, rfl⟩ | ⟨_, rfl⟩⟩
  · exact .refl _ _
  · exact ⟨rfl, Or.inl rfl⟩
  · have hlo := hwf.jitter_lo s.draws
    simp only [MIN_JITTER] at hlo
    exact ⟨rfl, Or.inr ⟨_, _, rfl, by omega⟩⟩

theorem Act.rearmed {cfg : Cfg} (hwf : cfg.WF) {s s' : Full} (h : Act cfg s s') : Rearmed (cfg.lifetime / 2 + 100) s s' := by
  cases h with
  | tells os e hl hos => exact ⟨e.now, Or.inl e.sched⟩
  | free e hl => exact ⟨e.now, Or.inl e.sched⟩
  | own p limit now v buf fr r hp e hl => exact ⟨e.now, Or.inl e.sched⟩
  | send h => exact sendSyncInterest_rearmed hwf h

theorem Acts.rearmed {cfg : Cfg} (hwf : cfg.WF) {s s' : Full} (h : Acts cfg s s') : Rearmed (cfg.lifetime / 2 + 100) s s' :=
  h.inv (P := fun x => Rearmed (cfg.lifetime / 2 + 100) s x) (fun _ _ ha hab => ha.trans (Act.rearmed hwf hab)) (.refl _ _)

/-- One event: time passes, or the timer fires and is armed again, or it stays or is armed again. -/
theorem step_rearmed {cfg : Cfg} (hwf : cfg.WF) {s s' : Full} {op : Op} (hr : Reach cfg s) {g : Nat}
    (hg : g ≤ cfg.lifetime / 2 + 100) (hop : g ≤ 100 ∨ Unheard op) (h : step cfg s op = .ok s') :
    (fires s op = false ∧ s.now ≤ s'.now ∧ s'.sched = s.sched) ∨
    (fires s op = true ∧ s'.now = s.now ∧ (∃ d k, s.sched = some (d, k) ∧ d ≤ s.now) ∧ ∃ d k, s'.sched = some (d, k) ∧ s.now + g ≤ d) ∨
    (fires s op = false ∧ s'.now = s.now ∧ ∃ d k, s'.sched = some (d, k) ∧ s.now + g ≤ d) := by
  have hnot : (∀ d k, op = .fireSync → s.sched = some (d, k) → ¬ d ≤ s.now) → fires s op = false := by
    intro hn
    unfold fires
    split
    · split
      · rename_i d k hd
        exact decide_eq_false (hn d k rfl hd)
      · rfl
    · rfl
  have hre : fires s op = false → Rearmed g s s' → (fires s op = false ∧ s.now ≤ s'.now ∧ s'.sched = s.sched) ∨
    (fires s op = true ∧ s'.now = s.now ∧ (∃ d k, s.sched = some (d, k) ∧ d ≤ s.now) ∧ ∃ d k, s'.sched = some (d, k) ∧ s.now + g ≤ d) ∨
    (fires s op = false ∧ s'.now = s.now ∧ ∃ d k, s'.sched = some (d, k) ∧ s.now + g ≤ d) := fun hf hx => by
    obtain ⟨h1, h2 | h2⟩ := hx
    · exact Or.inl ⟨hf, h1.ge, h2⟩
    · exact Or.inr (Or.inr ⟨hf, h1, h2⟩)
  by_cases hf : fires s op = true
  · have hfs : op = .fireSync ∧ ∃ d k, s.sched = some (d, k) ∧ d ≤ s.now := by
      unfold fires at hf
      split at hf
      · split at hf
        · rename_i d k hd
          exact ⟨rfl, d, k, hd, of_decide_eq_true hf⟩
        · cases hf
      · cases hf
    obtain ⟨rfl, d, k, hd, hdue⟩ := hfs
    refine Or.inr (Or.inl ⟨hf, ?_⟩)
    obtain ⟨d', k', e1, e2, e3, e4, e5⟩ := reach_alive hwf hr
    rw [hd, Option.some.injEq, Prod.mk.injEq] at e1
    obtain ⟨rfl, rfl⟩ := e1
    simp only [step, hd, if_pos hdue] at h
    have hrec : s.recentlySent = false := by
      unfold recentlySent
      cases hl : s.lastSent with
      | none => rfl
      | some t =>
        have := e4 t hl
        apply decide_eq_false
        simp only [MIN_JITTER]
        omega
    have hlo := hwf.jitter_lo s.draws
    simp only [MIN_JITTER] at hlo
    have key : ∀ x : Full, x.now = s.now → x.waitOut = false → x.draws = s.draws → x.lastSent = s.lastSent →
        sendSyncInterest cfg x = .ok s' → s'.now = s.now ∧ ∃ d k, s'.sched = some (d, k) ∧ s.now + g ≤ d := by
      intro x h1 h2 h3 h4 h
      have hx : x.recentlySent = false := by rw [← hrec]; unfold recentlySent; rw [h1, h4]
      rcases sendSyncInterest_ok h with ⟨h5, _⟩ | ⟨_, name, hn, ⟨h5, _, _⟩ | ⟨_, rfl⟩⟩
      · rw [h2] at h5; cases h5
      · rw [hx] at h5; cases h5
      · exact ⟨h1, _, _, rfl, by rw [h1, h3]; omega⟩
    suffices hs : s'.now = s.now ∧ ∃ d k, s'.sched = some (d, k) ∧ s.now + g ≤ d from ⟨hs.1, ⟨d, k, hd, hdue⟩, hs.2⟩
    cases k with
    | renew =>
      refine key { s with sched := none } rfl ?_ rfl rfl h
      show s.waitOut = false
      cases hw : s.waitOut with
      | false => rfl
      | true => exact absurd (e5 hw).1 (by simp)
    | waitOut => exact key { s with sched := none, waitOut := false } rfl rfl rfl rfl h
  · have hf : fires s op = false := by simpa using hf
    rcases step_acts h with ha | ⟨t, rfl, ht, _, rfl⟩ | ⟨d, k, s0, rfl, hd, hdue, _, _⟩ | ⟨f, t, rfl, hfe, ha, rfl⟩ |
      ⟨f, buf, acts, rfl, hfe, ha, h1⟩
    · exact hre hf ((Acts.rearmed hwf ha).mono hg)
    · exact Or.inl ⟨hf, ht, rfl⟩
    · exfalso
      simp only [fires, hd, hdue, decide_true] at hf
      cases hf
    · cases t with
      | true => exact hre hf ⟨rfl, Or.inl rfl⟩
      | false =>
        have hlo := hwf.jitter_lo s.draws
        simp only [MIN_JITTER] at hlo
        have hg' : g ≤ 100 := hop.elim id (fun h => by cases h)
        exact hre hf ⟨rfl, Or.inr ⟨_, _, rfl, by omega⟩⟩
    · have hg' : g ≤ 100 := hop.elim id (fun h => h.elim)
      apply hre hf
      rcases onSyncData_acts h1 with ⟨h0, rfl⟩ | ⟨ns, h0, _, h2, _, _, _, h5, h6⟩ | ⟨ns, us, s1, h0, h3, h4⟩
      · exact ⟨rfl, Or.inl rfl⟩
      · have hlo := hwf.jitter_lo s.draws
        simp only [MIN_JITTER] at hlo
        exact ⟨h5, Or.inr ⟨_, _, h2, by simp only [stopFetcher]; omega⟩⟩
      · have a0 : Rearmed g s (s.stopFetcher.emit (.update us)) := ⟨rfl, Or.inl rfl⟩
        have a1 : Rearmed g s s1 := Rearmed.trans a0 ((Acts.rearmed hwf h3).mono hg)
        have hlo := hwf.jitter_lo s1.draws
        simp only [MIN_JITTER] at hlo
        refine Rearmed.trans (Rearmed.trans a1 ?_) ((Acts.rearmed hwf h4).mono hg)
        exact ⟨rfl, Or.inr ⟨_, _, rfl, by omega⟩⟩

/-- After `n` firings since the time `t0`. -/
def Fired (g t0 n : Nat) (s : Full) : Prop :=
  ∃ d k, s.sched = some (d, k) ∧ t0 + n * g ≤ s.now + g ∧ (n = 0 ∨ t0 + n * g ≤ d) ∧ t0 ≤ s.now

/-- The same from a moment when the timer is at least `g` ms away. -/
def FiredFar (g t0 n : Nat) (s : Full) : Prop :=
  ∃ d k, s.sched = some (d, k) ∧ t0 + n * g ≤ s.now ∧ t0 + (n + 1) * g ≤ d

/-- All the firings of the timer in a run. -/
def firings (cfg : Cfg) : Full → List Op → Nat
  | _, [] => 0
  | s, op :: ops => (if fires s op then 1 else 0) + match step cfg s op with
    | .ok s' => firings cfg s' ops
    | _ => 0

theorem run_fired {cfg : Cfg} (hwf : cfg.WF) {g t0 : Nat} (hg : g ≤ cfg.lifetime / 2 + 100) (ops : List Op) :
    ∀ {s s' : Full} {n : Nat}, Reach cfg s → (∀ op ∈ ops, g ≤ 100 ∨ Unheard op) → Fired g t0 n s → run cfg s ops = .ok s' →
      Fired g t0 (n + firings cfg s ops) s' := by
  induction ops with
  | nil =>
    intro s s' n _ _ hf h
    simp only [run, foldRes, Res.ok.injEq] at h
    subst h
    exact hf
  | cons op ops ih =>
    intro s s' n hr hop hf h
    simp only [run, foldRes, Res.bind_eq_ok] at h
    obtain ⟨s1, h1, h2⟩ := h
    have e : firings cfg s (op :: ops) = (if fires s op then 1 else 0) + firings cfg s1 ops := by simp only [firings, h1]
    rw [e, ← Nat.add_assoc]
    refine ih (hr.next h1) (fun o ho => hop o (List.mem_cons_of_mem _ ho)) ?_ h2
    obtain ⟨d, k, a1, a2, a3, a4⟩ := hf
    rcases step_rearmed hwf hr hg (hop op (by simp)) h1 with ⟨b1, b2, b3⟩ | ⟨b1, b2, ⟨d0, k0, b3, b4⟩, d1, k1, b5, b6⟩ | ⟨b1, b2, d1, k1, b5, b6⟩
    · rw [b1]
      exact ⟨d, k, b3.trans a1, by simp only [Bool.false_eq_true, if_false, Nat.add_zero]; omega, a3, by omega⟩
    · rw [b1]
      rw [a1, Option.some.injEq, Prod.mk.injEq] at b3
      obtain ⟨rfl, rfl⟩ := b3
      have : (n + 1) * g = n * g + g := Nat.succ_mul n g
      have : t0 + n * g ≤ s.now := by
        rcases a3 with rfl | a3
        · rw [Nat.zero_mul]; exact a4
        · omega
      exact ⟨d1, k1, b5, by simp only [if_true]; omega, Or.inr (by simp only [if_true]; omega), by omega⟩
    · rw [b1]
      exact ⟨d1, k1, b5, by simp only [Bool.false_eq_true, if_false, Nat.add_zero]; omega,
        Or.inr (by simp only [Bool.false_eq_true, if_false, Nat.add_zero]; omega), by omega⟩

theorem run_firedFar {cfg : Cfg} (hwf : cfg.WF) {g t0 : Nat} (hg : g ≤ cfg.lifetime / 2 + 100) (ops : List Op) :
    ∀ {s s' : Full} {n : Nat}, Reach cfg s → (∀ op ∈ ops, g ≤ 100 ∨ Unheard op) → FiredFar g t0 n s → run cfg s ops = .ok s' →
      FiredFar g t0 (n + firings cfg s ops) s' := by
  induction ops with
  | nil =>
    intro s s' n _ _ hf h
    simp only [run, foldRes, Res.ok.injEq] at h
    subst h
    exact hf
  | cons op ops ih =>
    intro s s' n hr hop hf h
    simp only [run, foldRes, Res.bind_eq_ok] at h
    obtain ⟨s1, h1, h2⟩ := h
    have e : firings cfg s (op :: ops) = (if fires s op then 1 else 0) + firings cfg s1 ops := by simp only [firings, h1]
    rw [e, ← Nat.add_assoc]
    refine ih (hr.next h1) (fun o ho => hop o (List.mem_cons_of_mem _ ho)) ?_ h2
    obtain ⟨d, k, a1, a2, a3⟩ := hf
    have m1 : (n + 1) * g = n * g + g := Nat.succ_mul n g
    have m2 : (n + 1 + 1) * g = (n + 1) * g + g := Nat.succ_mul (n + 1) g
    rcases step_rearmed hwf hr hg (hop op (by simp)) h1 with ⟨b1, b2, b3⟩ | ⟨b1, b2, ⟨d0, k0, b3, b4⟩, d1, k1, b5, b6⟩ | ⟨b1, b2, d1, k1, b5, b6⟩
    · rw [b1]
      exact ⟨d, k, b3.trans a1, by simp only [Bool.false_eq_true, if_false, Nat.add_zero]; omega, a3⟩
    · rw [b1]
      rw [a1, Option.some.injEq, Prod.mk.injEq] at b3
      obtain ⟨rfl, rfl⟩ := b3
      exact ⟨d1, k1, b5, by simp only [if_true]; omega, by simp only [if_true]; omega⟩
    · rw [b1]
      exact ⟨d1, k1, b5, by simp only [Bool.false_eq_true, if_false, Nat.add_zero]; omega,
        by simp only [Bool.false_eq_true, if_false, Nat.add_zero]; omega⟩

theorem run_askDue {cfg : Cfg} (ops : List Op) : ∀ {s s' : Full}, Lists cfg s → run cfg s ops = .ok s' →
    askDue s' ≤ askDue s + ops.countP (fullAccepts cfg) + firings cfg s ops := by
  induction ops with
  | nil =>
    intro s s' _ h
    simp only [run, foldRes, Res.ok.injEq] at h
    subst h
    omega
  | cons op ops ih =>
    intro s s' hl h
    simp only [run, foldRes, Res.bind_eq_ok] at h
    obtain ⟨s1, h1, h2⟩ := h
    have e : firings cfg s (op :: ops) = (if fires s op then 1 else 0) + firings cfg s1 ops := by simp only [firings, h1]
    have k := step_askDue hl h1
    have := ih ((step_lists hl h1).lists hl) h2
    rw [List.countP_cons, e]
    omega

end Full
end PSync
