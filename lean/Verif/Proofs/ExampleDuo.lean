import Verif.Spec.ExampleDuo
import Verif.Proofs.ExampleRun
import Verif.Proofs.ExamplesProduce
import Verif.Proofs.PubSubPrompt
import Verif.Proofs.AppGroupPrompt
/-!
The example producer and the example consumer: what the programs do in time.
-/
namespace PSync
open Spec

/-- A subscription is kept by calls that do not remove it. -/
theorem CMicros.keeps {cfg : CCfg} {C : Cons.Call → Prop} {s s' : Cons} {p : Name} (h : CMicros cfg C s s')
    (hC : ∀ c, C c → c ≠ .removeSubscription p) (h0 : s.isSubscribed p = true) : s'.isSubscribed p = true := by
  induction h with
  | refl => exact h0
  | @tail a b _ hab ih =>
    cases hab with
    | call c hc h =>
      have n1 := hC c hc
      cases c with
      | addSubscription q seq cb =>
        simp only [Cons.call, Res.bind_eq_ok, Res.ok.injEq] at h
        obtain ⟨⟨r, s1⟩, h1, rfl⟩ := h
        rcases Cons.addSubscription_ok h1 with ⟨_, _, rfl⟩ | ⟨hx, _, bf, hbf, hp, hsub, hb, _, hl⟩
        · exact ih
        · simp only [Cons.isSubscribed, hsub, NMap.find_set] at ih ⊢
          split
          · rfl
          · exact ih
      | removeSubscription q =>
        simp only [Cons.call, Res.bind_eq_ok, Res.ok.injEq] at h
        obtain ⟨⟨r, s1⟩, h1, rfl⟩ := h
        rcases Cons.removeSubscription_ok h1 with ⟨_, _, rfl⟩ | ⟨hx, _, bf, hbf, rfl⟩
        · exact ih
        · simp only [Cons.isSubscribed, NMap.find_erase] at ih ⊢
          rw [if_neg]
          · exact ih
          · rintro rfl
            exact n1 rfl
      | sendHello => simp only [Cons.call, Res.ok.injEq] at h; subst h; exact ih
      | sendSync =>
        obtain ⟨_, cs, _, rfl⟩ := Cons.sendSyncInterest_ok (show a.sendSyncInterest cfg = .ok b from h)
        exact ih
      | stop => simp only [Cons.call, Res.ok.injEq] at h; subst h; exact ih
    | helloData names r ib h => exact ih
    | syncData names r ib h => exact ih
    | notify us => exact ih
    | hello m => exact ih
    | internal h1 h2 h3 h4 h5 => rw [Cons.isSubscribed, h3]; exact ih

namespace Spec.ExRun
variable {pc : Cfg} {cfg : ConsAppCfg} {P : Nat → Part} {A : Nat → ConsApp} {what : Nat → PSEv} {len : Nat}

/-- The example consumer keeps its subscriptions. -/
theorem stays (h : ExRun pc cfg P A what len) {m n : Nat} (hmn : m ≤ n) (hn : n ≤ len) {p : Name}
    (hp : (A m).cons.isSubscribed p = true) : (A n).cons.isSubscribed p = true := by
  induction n, hmn using Nat.le_induction with
  | base => exact hp
  | succ n hmn ih =>
    have ih := ih (by omega)
    cases h.step n (by omega) with
    | prod op hw hs hc => rw [hc]; exact ih
    | app op o hst ho hw hs hp _ _ =>
      obtain ⟨o', _, h1, h2, _⟩ := ConsApp.step_inv hs
      rw [ho] at h1
      rw [Res.ok.injEq] at h1
      subst h1
      have hc := (ConsApp.consOp_calls ho).1
      refine (Cons.run_micros (cfg := cfg.consumer) (ops := [o]) (C := fun c => c ≠ .removeSubscription p) (fun op hop c hc' => ?_)
        (by simp only [Cons.run, foldRes, h2, Res.ok_bind])).keeps (fun _ h => h) ih
      rw [List.mem_singleton] at hop
      subst hop
      rcases hc' with hc' | rfl | rfl
      · rcases hc c hc' with rfl | rfl | ⟨_, _, rfl⟩ <;> simp
      · simp
      · simp

/-- The example consumer asks in every hello callback and does not stop. -/
theorem goesOn (h : ExRun pc cfg P A what len) {n : Nat} (hn : n < len) {o : Cons.Op} (hw : what n = .cons o) : KeepsGoing [o] := by
  cases h.step n hn with
  | prod op hw' _ _ => rw [hw] at hw'; cases hw'
  | app op o' hst ho hw' hs hp _ _ =>
    rw [hw] at hw'
    cases hw'
    constructor
    · intro buf a1 a2 hm
      rw [List.mem_singleton] at hm
      subst hm
      cases op with
      | helloComplete b =>
        simp only [ConsApp.consOp] at ho
        split at ho
        · simp only [Res.bind_eq_ok, Res.ok.injEq, Cons.Op.helloComplete.injEq] at ho
          obtain ⟨_, _, acts, h2, _, rfl, _⟩ := ho
          obtain ⟨r, rfl, _⟩ := ConsApp.helloCalls_shape h2
          simp
        · simp only [Res.ok.injEq, Cons.Op.helloComplete.injEq] at ho
          rw [← ho.2.1]; simp
      | _ => simp [ConsApp.consOp] at ho
    · intro op' hop hc
      rw [List.mem_singleton] at hop
      subst hop
      rcases (ConsApp.consOp_calls ho).1 _ hc with e | e | ⟨_, _, e⟩ <;> cases e

/-- The first event at the example consumer is the hello Interest of its constructor. -/
theorem starts (h : ExRun pc cfg P A what len) {n0 : Nat} (hn0 : n0 ≤ len) (hs : ∃ k < n0, ∃ o, what k = .cons o) :
    ∃ b < n0, what b = .cons (.call .sendHello) := by
  classical
  obtain ⟨hb, o, ho⟩ := Nat.find_spec hs
  refine ⟨Nat.find hs, hb, ?_⟩
  cases h.step (Nat.find hs) (by omega) with
  | prod op hw _ _ => rw [ho] at hw; cases hw
  | app op o' hst ho' hw _ _ _ _ =>
    have : op = .start := hst.mpr (fun k hk => by
      cases hk' : what k with
      | prod o' => exact ⟨o', rfl⟩
      | cons o' => exact absurd ⟨by omega, o', hk'⟩ (Nat.find_min hs hk))
    subst this
    simp only [ConsApp.consOp, Res.ok.injEq] at ho'
    rw [hw, ← ho']

end Spec.ExRun

/-! ### The example producer -/

namespace PartApp

/-- The number of a stream. -/
def num (a : PartApp) (p : Name) : Nat := (a.prod.base.getSeqNo p).getD 0

/-- Updates are scheduled soon enough. -/
def Soon (D late : Nat) (a : PartApp) : Prop := ∀ e ∈ a.timers, e.1 ≤ (a.num e.2 + 1) * D + a.num e.2 * late

theorem init_soon {cfg : PubAppCfg} {a : PartApp} (h : init cfg = .ok a) : a.prod.now = 0 ∧ ∀ e ∈ a.timers, ∃ k, e.1 = cfg.delay k :=
  foldRes_inv (P := fun a : PartApp => a.prod.now = 0 ∧ ∀ e ∈ a.timers, ∃ k, e.1 = cfg.delay k) cfg.streams (by
      rintro b p b' - ⟨h2, h3⟩ hst
      unfold addStream at hst
      simp only [Part.step, Res.ok_bind, Res.ok.injEq] at hst
      subst hst
      refine ⟨h2, fun e he => ?_⟩
      simp only [schedule] at he
      rcases List.mem_append.mp he with he | he
      · exact h3 e he
      · rw [List.mem_singleton.mp he]
        exact ⟨b.draws, by simp [h2]⟩) (s := ⟨Part.init cfg.pc, [], 0, []⟩) ⟨rfl, by simp⟩ h

theorem Soon.update {cfg : PubAppCfg} {a a' : PartApp} {p : Name} {ts : List (Nat × Name)} {D late : Nat}
    (hD : ∀ k, cfg.delay k ≤ D) (hlate : ∀ e ∈ a.timers, a.prod.now ≤ e.1 + late)
    (hstill : ∀ s, Part.step cfg.pc a.prod (.publishName p none) = .ok s → s.now = a.prod.now)
    (ht : takeDueName a.prod.now a.timers = some (p, ts)) (hinv : Inv cfg.limit a p)
    (hsoon : Soon D late a) (h : doUpdate cfg { a with timers := ts } p = .ok a') : Soon D late a' := by
  obtain ⟨⟨d, hd, _⟩, hts⟩ := takeDueName_mem ht
  obtain ⟨k, hk, _, hor⟩ := hinv
  have hL := cfg.limit_lt
  have hkl : k < cfg.limit ∨ k = 0 := by
    rcases hor with h1 | h1
    · exact h1.2
    · have h2 : 0 < scheduled p a.timers := by
        unfold scheduled
        rw [List.count_pos_iff]
        exact List.mem_map_of_mem (f := Prod.snd) hd
      omega
  have hlt : k + 1 < U64 := by
    rcases hkl with h1 | h1
    · omega
    · subst h1; decide
  have hmod : max k ((k + 1) % U64) = k + 1 := by rw [Nat.mod_eq_of_lt hlt]; omega
  have h0 := h
  unfold doUpdate at h0
  rw [Res.bind_eq_ok] at h0
  obtain ⟨s, hs, _⟩ := h0
  rw [doUpdate_ok (a := { a with timers := ts }) hk hs] at h
  simp only [Res.ok.injEq, hmod] at h
  have hseq := publish_seq (s := a.prod) hk hs
  rw [hmod] at hseq
  have hnow := hstill s hs
  have hnum : ∀ q, (s.base.getSeqNo q).getD 0 = if p = q then k + 1 else a.num q := by
    intro q
    simp only [num, hseq q]
    split <;> simp
  have hkn : a.num p = k := by simp [num, hk]
  have hold : ∀ e ∈ ts, e.1 ≤ ((s.base.getSeqNo e.2).getD 0 + 1) * D + (s.base.getSeqNo e.2).getD 0 * late := by
    intro e he
    have h1 := hsoon e (hts e he)
    have h2 : a.num e.2 ≤ (s.base.getSeqNo e.2).getD 0 := by
      rw [hnum]
      split
      · rename_i hpe; rw [← hpe, hkn]; omega
      · exact le_refl _
    exact le_trans h1 (Nat.add_le_add (Nat.mul_le_mul_right _ (by omega)) (Nat.mul_le_mul_right _ h2))
  have hnew : a.prod.now + cfg.delay a.draws ≤ (k + 1 + 1) * D + (k + 1) * late := by
    have h1 := hsoon _ hd
    have h2 := hlate _ hd
    simp only [hkn] at h1 h2
    have h3 := hD a.draws
    have e1 : (k + 1 + 1) * D = (k + 1) * D + D := Nat.succ_mul _ _
    have e2 : (k + 1) * late = k * late + late := Nat.succ_mul _ _
    omega
  by_cases hvl : k + 1 < cfg.limit
  · rw [if_pos hvl] at h
    subst h
    intro e he
    simp only [schedule, num] at he ⊢
    rcases List.mem_append.mp he with he | he
    · exact hold e he
    · rw [List.mem_singleton.mp he]
      simp only [hnow, hnum p, if_true]
      exact hnew
  · rw [if_neg hvl] at h
    subst h
    intro e he
    exact hold e he

end PartApp

namespace Spec.Produces
variable {pcfg : PubAppCfg} {cfg : ConsAppCfg} {P : Nat → Part} {A : Nat → ConsApp} {B : Nat → PartApp} {what : Nat → PSEv} {m len : Nat}

/-- The example producer is in a reachable state. -/
theorem reach (h : Produces pcfg P B what m len) {n : Nat} (hmn : m ≤ n) (hn : n ≤ len) : PartAppReach pcfg (B n) := by
  induction n, hmn using Nat.le_induction with
  | base => exact ⟨B m, [], h.start, rfl⟩
  | succ n hmn ih =>
    have ih := ih (by omega)
    have next : ∀ o, PartApp.step pcfg (B n) o = .ok (B (n + 1)) → PartAppReach pcfg (B (n + 1)) := by
      intro o ho
      obtain ⟨a0, ops, h1, h2⟩ := ih
      refine ⟨a0, ops ++ [o], h1, ?_⟩
      unfold PartApp.run at h2 ⊢
      rw [foldRes_append, h2, Res.ok_bind]
      simp only [foldRes]
      rw [ho]
      rfl
    cases hw : what n with
    | cons o => rw [h.cons n hmn (by omega) o hw]; exact ih
    | prod op =>
      rcases h.prod n hmn (by omega) op hw with ⟨_, h1⟩ | ⟨p, ts, _, _, h1⟩
      · exact next _ h1
      · exact next _ h1

/-- No prefix is removed. -/
theorem keepsAll (h : Produces pcfg P B what m len) : ∀ k < len, ∀ p, what k ≠ .prod (.removeUserNode p) := by
  intro k hk p hw
  by_cases hkm : k < m
  · have h1 := h.names
    have h2 : what k ∈ (List.range m).map what := List.mem_map.mpr ⟨k, List.mem_range.mpr hkm, rfl⟩
    rw [← h1, hw, List.mem_map] at h2
    obtain ⟨q, _, h3⟩ := h2
    cases h3
  · rcases h.prod k (by omega) hk _ hw with ⟨h1, _⟩ | ⟨q, ts, _, h1, _⟩
    · cases h1
    · cases h1

theorem soon (h : Produces pcfg P B what m len) (hr : ExRun pcfg.pc cfg P A what len) (hnd : pcfg.streams.Nodup) {D late : Nat}
    (hD : ∀ k, pcfg.delay k ≤ D) (hlate : InTime late B m len) {n : Nat} (hmn : m ≤ n) (hn : n ≤ len) : PartApp.Soon D late (B n) := by
  induction n, hmn using Nat.le_induction with
  | base =>
    obtain ⟨_, h1⟩ := PartApp.init_soon h.start
    intro e he
    obtain ⟨k, hk⟩ := h1 e he
    rw [hk]
    have h2 := hD k
    have h3 : D ≤ ((B m).num e.2 + 1) * D := Nat.le_mul_of_pos_left _ (Nat.succ_pos _)
    omega
  | succ n hmn ih =>
    have ih := ih (by omega)
    cases hw : what n with
    | cons o => rw [h.cons n hmn (by omega) o hw]; exact ih
    | prod op =>
      rcases h.prod n hmn (by omega) op hw with ⟨ho, h1⟩ | ⟨p, ts, ht, _, h1⟩
      · simp only [PartApp.step, ho, if_true, Res.bind_eq_ok, Res.ok.injEq] at h1
        obtain ⟨s, h2, h3⟩ := h1
        rw [← h3]
        intro e he
        simp only [PartApp.num, PartApp.outside_base ho h2]
        exact ih e he
      · rw [← h.same n hmn (by omega)] at ht
        simp only [PartApp.step, ht] at h1
        have hi := PartApp.reach_inv hnd (h.reach hmn (by omega))
        have hp : p ∈ pcfg.streams := hi.2 p (by have := takeDueName_count ht p; rw [if_pos rfl] at this; omega)
        refine ih.update hD (hlate n hmn (by omega)) (fun s hs => ?_) ht (hi.1 p hp) h1
        have hc := (Part.run_aged (hr.psrun.prodOps_run (n := n) (by omega))).clocked
        rw [← h.same n hmn (by omega)] at hc
        exact (Part.step_clocked hc hs).2.2 (fun t => by simp)

/-- When the producer's clock has passed the time of the last update, every number has been published. -/
theorem finished (h : Produces pcfg P B what m len) (hr : ExRun pcfg.pc cfg P A what len) (hnd : pcfg.streams.Nodup) {D late : Nat}
    (hD : ∀ k, pcfg.delay k ≤ D) (hlate : InTime late B m len) (h1 : 1 ≤ pcfg.limit) {n : Nat} (hmn : m ≤ n) (hn : n ≤ len)
    (hpast : pcfg.limit * (D + late) < (P n).now) {p : Name} (hp : p ∈ pcfg.streams) :
    (P n).base.getSeqNo p = some pcfg.limit ∧ printedFor p (B n).published = upTo 1 pcfg.limit := by
  obtain ⟨k, hk, hpub, hor⟩ := (PartApp.reach_inv hnd (h.reach hmn hn)).1 p hp
  rw [h.same n hmn hn] at hk
  have hkl : k = pcfg.limit := by
    rcases hor with ⟨h2, h3⟩ | h2
    · exfalso
      have hmem : p ∈ (B n).timers.map Prod.snd := by
        rw [← List.count_pos_iff]
        have : scheduled p (B n).timers = 1 := h2
        unfold scheduled at this
        omega
      obtain ⟨e, he, rfl⟩ := List.mem_map.mp hmem
      have h4 := h.soon hr hnd hD hlate hmn hn e he
      have h5 := hlate n hmn hn e he
      rw [h.same n hmn hn] at h5
      have h6 : (B n).num e.2 = k := by simp [PartApp.num, h.same n hmn hn, hk]
      rw [h6] at h4
      have hk' : k < pcfg.limit := by omega
      have h7 : (k + 1) * (D + late) ≤ pcfg.limit * (D + late) := Nat.mul_le_mul_right _ hk'
      have e1 : (k + 1) * (D + late) = (k + 1) * D + (k * late + late) := by rw [Nat.mul_add, Nat.succ_mul k late]
      omega
    · omega
  rw [hkl] at hk hpub
  exact ⟨hk, hpub⟩

end Spec.Produces
end PSync
