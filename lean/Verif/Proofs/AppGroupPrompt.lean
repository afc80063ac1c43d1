import Verif.Proofs.AppGroup
import Verif.Proofs.FairPrompt
import Verif.Spec.AppGroupPrompt
import Mathlib.Order.Interval.Finset.Nat
import Mathlib.Algebra.Order.BigOperators.Group.Finset
/-!
When the example programs of a full-sync group have published everything.
-/
namespace PSync
open Spec

theorem takeDueName_mem {now : Nat} {ts ts' : List (Nat × Name)} {p : Name} (h : takeDueName now ts = some (p, ts')) :
    (∃ d, (d, p) ∈ ts ∧ d ≤ now) ∧ ∀ e ∈ ts', e ∈ ts := by
  induction ts generalizing ts' with
  | nil => cases h
  | cons x ts ih =>
    obtain ⟨d, r⟩ := x
    simp only [takeDueName] at h
    split at h
    · rename_i hd
      cases h
      exact ⟨⟨d, by simp, hd⟩, fun e he => List.mem_cons_of_mem _ he⟩
    · cases h1 : takeDueName now ts with
      | none => rw [h1] at h; cases h
      | some y =>
        obtain ⟨p', ts1⟩ := y
        rw [h1] at h
        cases h
        obtain ⟨⟨d', h2, h3⟩, h4⟩ := ih h1
        refine ⟨⟨d', List.mem_cons_of_mem _ h2, h3⟩, fun e he => ?_⟩
        rcases List.mem_cons.mp he with rfl | he
        · simp
        · exact List.mem_cons_of_mem _ (h4 e he)

/-- What publishName records. -/
theorem Full.publishName_made {cfg : Cfg} {s s' : Full} {p : Name} {seq : Option Nat} {cur : Nat} (hs : s.base.Inv)
    (hp : s.base.prefixes.find p = some cur) (h : publishName cfg s p seq = .ok s') :
    s'.made = s.made ++ [(p, newSeq seq cur)] := by
  unfold publishName at h
  simp only [hp, Res.bind_eq_ok] at h
  obtain ⟨b, h1, h2⟩ := h
  have hlt := newSeq_lt seq cur
  have := (satisfyPending_micro (R := fun _ => False) (L := fun _ _ => False) (M := fun _ => False)
    (s := { s with base := b, waitOut := false, made := s.made ++ [(p, newSeq seq cur)] })
    (Base.inv_update hs hlt h1) (Or.inr ⟨updateSeqNo_known hp h1, p, _, by simp, hlt, rfl⟩) h2).noPublish (fun _ _ h => h)
  exact this

namespace FullApp

theorem doUpdate_now {cfg : PubAppCfg} {a a' : FullApp} {p : Name} (h : doUpdate cfg a p = .ok a') : a'.prod.now = a.prod.now := by
  obtain ⟨b, h1, h2, _⟩ := doUpdate_eq h
  have h3 := (produce_eq h1).1
  rw [h2]
  simp only [Full.step] at h3
  exact (Full.call_acts h3).now

/-- What the constructor leaves. -/
theorem init_start {cfg : PubAppCfg} {a : FullApp} (h : init cfg = .ok a) :
    a.prod.made = [] ∧ a.prod.now = 0 ∧ ∀ e ∈ a.timers, ∃ k, e.1 = cfg.delay k := by
  unfold init at h
  rw [Res.bind_eq_ok] at h
  obtain ⟨s, h0, h⟩ := h
  have hnow : s.now = 0 := by
    unfold Full.init Full.sendSyncInterest at h0
    split at h0
    · cases h0; rfl
    · rw [Res.bind_eq_ok] at h0
      obtain ⟨n, _, h0⟩ := h0
      split at h0 <;> (rw [Res.ok.injEq] at h0; rw [← h0]; rfl)
  exact foldRes_inv (P := fun a : FullApp => a.prod.made = [] ∧ a.prod.now = 0 ∧ ∀ e ∈ a.timers, ∃ k, e.1 = cfg.delay k)
    cfg.streams (by
      rintro b p b' - ⟨h1, h2, h3⟩ hst
      obtain ⟨c, h4, rfl⟩ := addStream_eq hst
      obtain ⟨h5, h6, _⟩ := produce_eq h4
      simp only [Full.step, Full.call, Res.ok.injEq] at h5
      simp only [schedule]
      rw [← h5, h6]
      refine ⟨h1, h2, fun e he => ?_⟩
      rcases List.mem_append.mp he with he | he
      · exact h3 e he
      · rw [List.mem_singleton.mp he]
        exact ⟨c.draws, by simp [h2]⟩) (s := ⟨s, [], 0, [], []⟩) ⟨Full.init_made h0, hnow, by simp⟩ h

/-- Updates are scheduled soon enough, and what was published is numbered from 1. -/
def Soon (cfg : PubAppCfg) (D late : Nat) (a : FullApp) : Prop :=
  (∀ e ∈ a.timers, e.1 ≤ (numberOf a.prod e.2 + 1) * D + numberOf a.prod e.2 * late) ∧
  ∀ e ∈ a.prod.made, e.1 ∈ cfg.streams ∧ 1 ≤ e.2 ∧ e.2 ≤ max 1 cfg.limit

theorem Soon.update {cfg : PubAppCfg} {a a' : FullApp} {p : Name} {ts : List (Nat × Name)} {D late : Nat} (hr : a.prod.base.Inv)
    (hD : ∀ k, cfg.delay k ≤ D) (hlate : ∀ e ∈ a.timers, a.prod.now ≤ e.1 + late)
    (ht : takeDueName a.prod.now a.timers = some (p, ts)) (hp : p ∈ cfg.streams) (hall : ∀ q ∈ cfg.streams, Own cfg.limit a q)
    (hsoon : Soon cfg D late a) (h : doUpdate cfg { a with timers := ts } p = .ok a') : Soon cfg D late a' := by
  obtain ⟨⟨d, hd, _⟩, hts⟩ := takeDueName_mem ht
  obtain ⟨_, k, hk, _, hor⟩ := hall p hp
  have hL := cfg.limit_lt
  have hkl : k < cfg.limit ∨ k = 0 := by
    rcases hor with h1 | h1
    · exact h1.2
    · have h2 : 0 < scheduled p a.timers := by
        unfold scheduled
        rw [List.count_pos_iff]
        exact List.mem_map_of_mem (f := Prod.snd) hd
      omega
  have hlt : k + 1 < U64 := by
    rcases hkl with h1 | h1
    · omega
    · subst h1; decide
  have hmod : max k ((k + 1) % U64) = k + 1 := by rw [Nat.mod_eq_of_lt hlt]; omega
  have h0 := h
  unfold doUpdate at h0
  rw [Res.bind_eq_ok] at h0
  obtain ⟨b, hb, _⟩ := h0
  rw [doUpdate_ok (a := { a with timers := ts }) hk hb] at h
  simp only [Res.ok.injEq, hmod] at h
  obtain ⟨hs, hbt, _, _⟩ := produce_eq hb
  simp only at hs hbt
  have hseq := publish_seq (s := a.prod) hk hs
  rw [hmod] at hseq
  have hnow : b.prod.now = a.prod.now := by
    simp only [Full.step] at hs
    exact (Full.call_acts hs).now
  have hmade : b.prod.made = a.prod.made ++ [(p, k + 1)] := by
    simp only [Full.step, Full.call] at hs
    have := Full.publishName_made hr hk hs
    rw [this]
    simp only [Full.newSeq, Nat.mod_eq_of_lt hlt]
  have hnum : ∀ q, numberOf b.prod q = if p = q then k + 1 else numberOf a.prod q := by
    intro q
    simp only [numberOf, hseq q]
    split <;> simp
  have hkn : numberOf a.prod p = k := by simp [numberOf, hk]
  have hold : ∀ e ∈ ts, e.1 ≤ (numberOf b.prod e.2 + 1) * D + numberOf b.prod e.2 * late := by
    intro e he
    have h1 := hsoon.1 e (hts e he)
    have h2 : numberOf a.prod e.2 ≤ numberOf b.prod e.2 := by
      rw [hnum]
      split
      · rename_i hpe; rw [← hpe, hkn]; omega
      · exact le_refl _
    exact le_trans h1 (Nat.add_le_add (Nat.mul_le_mul_right _ (by omega)) (Nat.mul_le_mul_right _ h2))
  have hm : ∀ e ∈ b.prod.made, e.1 ∈ cfg.streams ∧ 1 ≤ e.2 ∧ e.2 ≤ max 1 cfg.limit := by
    intro e he
    rw [hmade] at he
    rcases List.mem_append.mp he with he | he
    · exact hsoon.2 e he
    · rw [List.mem_singleton.mp he]
      refine ⟨hp, Nat.succ_pos k, ?_⟩
      simp only
      omega
  have hnew : a.prod.now + cfg.delay b.draws ≤ (k + 1 + 1) * D + (k + 1) * late := by
    have h1 := hsoon.1 _ hd
    have h2 := hlate _ hd
    simp only [hkn] at h1 h2
    have h3 := hD b.draws
    have e1 : (k + 1 + 1) * D = (k + 1) * D + D := Nat.succ_mul _ _
    have e2 : (k + 1) * late = k * late + late := Nat.succ_mul _ _
    omega
  by_cases hvl : k + 1 < cfg.limit
  · rw [if_pos hvl] at h
    subst h
    refine ⟨fun e he => ?_, hm⟩
    simp only [schedule, hbt] at he ⊢
    rcases List.mem_append.mp he with he | he
    · exact hold e he
    · rw [List.mem_singleton.mp he]
      simp only [hnow, hnum p, if_true]
      exact hnew
  · rw [if_neg hvl] at h
    subst h
    exact ⟨fun e he => hold e (by simpa [hbt] using he), hm⟩

end FullApp

section
variable {ι : Type} {cfg : ι → PubAppCfg} {a : Nat → ι → FullApp} {who : Nat → ι} {what : Nat → FullApp.Op} {len : Nat}

theorem Spec.ARun.soon [Finite ι] (hg : IsGroup (options cfg)) (ho : OwnStreams cfg) (h : ARun cfg a who what len)
    (hs : Sane (options cfg) (producers (a len))) {D late : Nat} (hD : ∀ i k, (cfg i).delay k ≤ D)
    (hlate : UpdatesInTime late a len) {n : Nat} (hn : n ≤ len) (i : ι) : FullApp.Soon (cfg i) D late (a n i) := by
  induction n with
  | zero =>
    obtain ⟨h1, _, h3⟩ := FullApp.init_start (h.init i)
    refine ⟨fun e he => ?_, by rw [h1]; simp⟩
    obtain ⟨k, hk⟩ := h3 e he
    rw [hk]
    have := hD i k
    rw [(FullApp.init_foreign (h.init i)).2.2]
    omega
  | succ n ih =>
    have ih := ih (by omega)
    have hst := h.step n (by omega)
    by_cases hi : i = who n
    · subst hi
      have hreach := h.appReach (n := n) (by omega) (who n)
      have hf := FullApp.foreign (ho.once _) hreach
      have hstep := hst.step
      cases hop : what n with
      | prod op =>
        rw [hop] at hstep
        simp only [FullApp.step] at hstep
        split at hstep
        · rename_i hout
          have he := FullApp.produce_eq hstep
          have hmade : (a (n + 1) (who n)).prod.made = (a n (who n)).prod.made :=
            (Full.step_micro (Full.reach_inv hf.1) he.1).noPublish
              (fun p q hq => FullApp.outside_publishes hout p (Full.Op.PublishesAs.publishes hq))
          refine ⟨fun e hmem => ?_, by rw [hmade]; exact ih.2⟩
          rw [he.2.1] at hmem
          have h2 := (FullApp.produce_outside_printed hf.1 hout hstep e.2).1.le
          refine le_trans (ih.1 e hmem) (Nat.add_le_add (Nat.mul_le_mul_right _ (by omega)) (Nat.mul_le_mul_right _ h2))
        · rw [Res.ok.injEq] at hstep
          rw [← hstep]; exact ih
      | update =>
        rw [hop] at hstep
        simp only [FullApp.step] at hstep
        split at hstep
        · rw [Res.ok.injEq] at hstep
          rw [← hstep]; exact ih
        · rename_i p ts ht
          have hp : p ∈ (cfg (who n)).streams := (FullApp.reach_inv (ho.once _) hreach).2 p
            (by have := takeDueName_count ht p; rw [if_pos rfl] at this; omega)
          exact FullApp.Soon.update (Full.reach_inv hf.1) (hD _) (hlate n (by omega) (who n)) ht hp (h.ownAt hg ho hs (by omega) (who n)) ih hstep
    · rw [hst.others i hi]
      exact ih

/-- While an update is scheduled, the clock has not passed the time by which all are made. -/
theorem Spec.ARun.busyUntil [Finite ι] (hg : IsGroup (options cfg)) (ho : OwnStreams cfg) (h : ARun cfg a who what len)
    (hs : Sane (options cfg) (producers (a len))) {D late : Nat} (hD : ∀ i k, (cfg i).delay k ≤ D)
    (hlate : UpdatesInTime late a len) {i : ι} (h1 : 1 ≤ (cfg i).limit) {P : Nat} (hP : (cfg i).limit * (D + late) ≤ P)
    {n : Nat} (hn : n ≤ len) (hbusy : (a n i).timers ≠ []) : (a n i).prod.now ≤ P := by
  obtain ⟨e, he⟩ := List.exists_mem_of_ne_nil _ hbusy
  have h2 := (h.soon hg ho hs hD hlate hn i).1 e he
  have h3 := hlate n hn i e he
  have hsch : 0 < scheduled e.2 (a n i).timers := by
    unfold scheduled
    rw [List.count_pos_iff]
    exact List.mem_map_of_mem (f := Prod.snd) he
  have hp : e.2 ∈ (cfg i).streams := (FullApp.reach_inv (ho.once _) (h.appReach hn i)).2 e.2 (by omega)
  obtain ⟨_, k, hk, _, hor⟩ := h.ownAt hg ho hs hn i e.2 hp
  have hkn : numberOf (a n i).prod e.2 = k := by simp [numberOf, hk]
  have hkl : k < (cfg i).limit := by
    rcases hor with h4 | h4 <;> omega
  rw [hkn] at h2
  have h5 : (k + 1) * (D + late) ≤ P := le_trans (Nat.mul_le_mul_right _ hkl) hP
  have e1 : (k + 1) * (D + late) = (k + 1) * D + (k * late + late) := by rw [Nat.mul_add, Nat.succ_mul k late]
  omega


/-- No program holds a number before the first and after the last. -/
theorem Spec.ARun.bounded [Finite ι] (hg : IsGroup (options cfg)) (ho : OwnStreams cfg) (h : ARun cfg a who what len)
    (hs : Sane (options cfg) (producers (a len))) (h1 : ∀ j, 1 ≤ (cfg j).limit) {n : Nat} (hn : n ≤ len) (i : ι) (p : Name) :
    numberOf (a n i).prod p = 0 ∨ ∃ j, p ∈ (cfg j).streams ∧ numberOf (a n i).prod p ≤ (cfg j).limit := by
  rcases (h.greach ho hn).owned hg (h.saneAt ho hs hn) i p with h0 | ⟨j, hj, hm⟩
  · exact .inl h0
  · right
    refine ⟨j, hj, ?_⟩
    have h2 := (h.greach ho hn).reached j p _ hm
    obtain ⟨_, k, hk, _, hor⟩ := h.ownAt hg ho hs hn j p hj
    have hkn : numberOf (producers (a n) j) p = k := by simp [producers, numberOf, hk]
    have h3 := h1 j
    simp only [producers] at h2 hkn
    omega

/-- All updates of all programs. -/
def allUpdates [Fintype ι] (cfg : ι → PubAppCfg) : Finset (Name × Nat) :=
  Finset.univ.biUnion fun j => (cfg j).streams.toFinset ×ˢ Finset.Icc 1 (cfg j).limit

theorem mem_allUpdates [Fintype ι] {p : Name} {q : Nat} :
    (p, q) ∈ allUpdates cfg ↔ ∃ j, p ∈ (cfg j).streams ∧ 1 ≤ q ∧ q ≤ (cfg j).limit := by
  simp [allUpdates]

theorem card_allUpdates [Fintype ι] (hl : ∀ j, (cfg j).limit = (cfg j).maxPublish.toNat) :
    (allUpdates cfg).card ≤ totalUpdates cfg := by
  refine le_trans Finset.card_biUnion_le ?_
  unfold totalUpdates
  refine Finset.sum_le_sum fun j _ => ?_
  rw [Finset.card_product, Nat.card_Icc, hl j, Nat.add_sub_cancel]
  refine Nat.mul_le_mul_right _ (le_trans (List.toFinset_card_le _) ?_)
  simp [PubAppCfg.streams]

theorem sumSeq_card {m : NMap Nat} (hm : (m.map Prod.fst).Nodup) : ∀ {T : Finset (Name × Nat)},
    (∀ e ∈ m, ∀ q, 1 ≤ q → q ≤ e.2 → (e.1, q) ∈ T) → sumSeq m ≤ T.card := by
  induction m with
  | nil => intro T _; simp [sumSeq]
  | cons e m ih =>
    intro T hT
    rw [List.map_cons, List.nodup_cons] at hm
    have h1 := ih hm.2 (T := T.filter (fun x => ¬ x.1 = e.1)) (fun x hx q h1 h2 => by
      rw [Finset.mem_filter]
      refine ⟨hT x (List.mem_cons_of_mem _ hx) q h1 h2, fun he => hm.1 ?_⟩
      exact List.mem_map.mpr ⟨x, hx, he⟩)
    have h2 : e.2 ≤ (T.filter (fun x => x.1 = e.1)).card := by
      have : ((Finset.Icc 1 e.2).image (fun q => (e.1, q))).card ≤ (T.filter (fun x => x.1 = e.1)).card := by
        refine Finset.card_le_card fun x hx => ?_
        obtain ⟨q, hq, rfl⟩ := Finset.mem_image.mp hx
        rw [Finset.mem_Icc] at hq
        rw [Finset.mem_filter]
        exact ⟨hT e (by simp) q hq.1 hq.2, rfl⟩
      rwa [Finset.card_image_of_injective _ (fun x y hxy => by simpa using hxy), Nat.card_Icc, Nat.add_sub_cancel] at this
    have h3 := Finset.card_filter_add_card_filter_not (s := T) (fun x => x.1 = e.1)
    simp only [sumSeq, List.map_cons, List.sum_cons] at h1 ⊢
    omega

/-- The moment at which the last update has been published. -/
theorem Spec.ARun.idleFrom [Finite ι] (hg : IsGroup (options cfg)) (ho : OwnStreams cfg) (h : ARun cfg a who what len)
    (hs : Sane (options cfg) (producers (a len))) {D late : Nat} (hD : ∀ i k, (cfg i).delay k ≤ D)
    (hlate : UpdatesInTime late a len) (h1 : ∀ j, 1 ≤ (cfg j).limit) {P : Nat} (hP : ∀ j, (cfg j).limit * (D + late) ≤ P)
    {δ : Nat} (hclock : ∀ n < len, (∀ t, what n ≠ .prod (.tick t)) → ∀ i j, (a n i).prod.now ≤ (a n j).prod.now + δ)
    (hlong : ∀ i, P < (a len i).prod.now) :
    ∃ t ≤ len, (∀ i, (a t i).timers = []) ∧ ∀ i, (a t i).prod.now ≤ P + δ := by
  classical
  have hex : ∃ t, t ≤ len ∧ ∀ i, (a t i).timers = [] := by
    refine ⟨len, le_refl _, fun i => ?_⟩
    by_contra hne
    have := h.busyUntil hg ho hs hD hlate (h1 i) (hP i) (le_refl _) hne
    have := hlong i
    omega
  obtain ⟨ht, hi⟩ := Nat.find_spec hex
  refine ⟨Nat.find hex, ht, hi, ?_⟩
  rcases Nat.eq_zero_or_pos (Nat.find hex) with h0 | h0
  · intro i
    rw [h0, (FullApp.init_start (h.init i)).2.1]
    omega
  · obtain ⟨n, hn⟩ : ∃ n, Nat.find hex = n + 1 := ⟨Nat.find hex - 1, by omega⟩
    have hnot := Nat.find_min hex (m := n) (by omega)
    rw [hn] at ht hi ⊢
    have hb : ∃ j, (a n j).timers ≠ [] := by
      by_contra hc
      push Not at hc
      exact hnot ⟨by omega, hc⟩
    obtain ⟨j, hj⟩ := hb
    have hst := h.step n (by omega)
    have hjw : j = who n := by
      by_contra hc
      rw [← hst.others j hc] at hj
      exact hj (hi j)
    have hstep := hst.step
    have hno : ∀ t, what n ≠ .prod (.tick t) := by
      intro t hop
      rw [hop] at hstep
      simp only [FullApp.step] at hstep
      split at hstep
      · have := (FullApp.produce_eq hstep).2.1
        rw [hjw, ← this] at hj
        exact hj (hi _)
      · rw [Res.ok.injEq] at hstep
        rw [hjw, hstep] at hj
        exact hj (hi _)
    have hnow : (a (n + 1) (who n)).prod.now = (a n (who n)).prod.now := by
      cases hop : what n with
      | prod op =>
        rw [hop] at hstep
        simp only [FullApp.step] at hstep
        split at hstep
        · have := (FullApp.produce_eq hstep).2.1
          rw [hjw, ← this] at hj
          exact absurd (hi _) hj
        · rw [Res.ok.injEq] at hstep
          rw [hjw, hstep] at hj
          exact absurd (hi _) hj
      | update =>
        rw [hop] at hstep
        simp only [FullApp.step] at hstep
        split at hstep
        · rw [Res.ok.injEq] at hstep
          rw [← hstep]
        · have := FullApp.doUpdate_now hstep
          exact this
    intro i
    have h2 := hclock n (by omega) hno i j
    have h3 := h.busyUntil hg ho hs hD hlate (h1 j) (hP j) (n := n) (by omega) hj
    by_cases hi' : i = who n
    · rw [hi', hnow, ← hi']; omega
    · rw [hst.others i hi']; omega

theorem Spec.Prompt.shift {g : Nat → ι → Full} {w : Nat → ι} {o : Nat → Full.Op} {g' : Nat → ι → Full} {w' : Nat → ι} {o' : Nat → Full.Op}
    {Δ m t : Nat} (hg : ∀ n ≤ len, g' (m + n) = g n) (hw : ∀ n < len, w' (m + n) = w n ∧ o' (m + n) = o n)
    (h : Prompt Δ g w o t len) : Prompt Δ g' w' o' (m + t) (m + len) := by
  intro k i nm lt h1 h2 h3 h4
  obtain ⟨n, rfl⟩ : ∃ n, k = m + n := ⟨k - m, by omega⟩
  rw [show m + n + 1 = m + (n + 1) by omega, hg n (by omega), hg (n + 1) (by omega)] at h3
  rw [hg n (by omega), hg len (le_refl _)] at h4
  obtain ⟨x, int, h5, h6⟩ := h n i nm lt (by omega) (by omega) h3 h4
  refine ⟨fun j => m + x j, int, fun j hj => ?_, fun he => ?_⟩
  · obtain ⟨e1, e2, e3, e4, e5, e6⟩ := h5 j hj
    refine ⟨?_, ?_, (hw _ e2).1.trans e3, (hw _ e2).2.trans e4, e5, ?_⟩
    · exact Nat.add_lt_add_left e1 m
    · exact Nat.add_lt_add_left e2 m
    · simp only
      rw [hg _ (by omega), hg n (by omega)]; exact e6
  · obtain ⟨j, d, hj, hd⟩ := he
    have hx := (h5 j hj).2.1
    simp only at hd
    rw [show m + x j + 1 = m + (x j + 1) by omega, hg _ (by omega), hg _ (by omega)] at hd
    obtain ⟨j, d, b, hj, hd, e1, e2, e3, e4⟩ := h6 ⟨j, d, hj, hd⟩
    have hx := (h5 j hj).2.1
    refine ⟨j, d, m + b, hj, ?_, Nat.add_lt_add_left e1 m, by omega, ?_, ?_⟩
    · simp only
      rw [show m + x j + 1 = m + (x j + 1) by omega, hg _ (by omega), hg _ (by omega)]; exact hd
    · exact ⟨(hw b e2).1.trans e3.who, by rw [hg b (by omega)]; exact e3.active, by
        rw [hg b (by omega), (hw b e2).2]; exact e3.fetch⟩
    · rw [hg _ (by omega), hg n (by omega)]; exact e4

end
end PSync
