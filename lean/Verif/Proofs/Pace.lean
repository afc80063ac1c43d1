import Verif.Proofs.Acts
import Verif.Proofs.StoreTime
import Verif.Props.FullTimers
/-!
When a FullProducer sends its next sync Interest, at the latest and at the earliest.
-/
namespace PSync
open Spec
namespace Full

theorem Act.now {cfg : Cfg} {s s' : Full} (h : Act cfg s s') : s'.now = s.now := by
  cases h with
  | tells os h _ _ => exact h.now
  | free h _ => exact h.now
  | send h =>
    rcases sendSyncInterest_ok h with ⟨_, rfl⟩ | ⟨_, name, _, ⟨_, _, rfl⟩ | ⟨_, rfl⟩⟩ <;> rfl
  | own p limit now v buf fr r _ h _ => exact h.now

theorem Acts.now {cfg : Cfg} {s s' : Full} (h : Acts cfg s s') : s'.now = s.now :=
  h.inv (P := fun x => x.now = s.now) (fun _ _ ha hab => hab.now.trans ha) rfl

theorem stop_idle (s : Full) (f : Fetcher) (hf : s.stopFetcher.fetcher = some f) : f.active = false := by
  simp only [stopFetcher, Option.map_eq_some_iff] at hf
  obtain ⟨g, _, rfl⟩ := hf
  rfl

/-- A sync Interest was sent since the log was `l`. -/
def Asked (l : List Out) (s : Full) : Prop := ∃ ext n t, s.log = l ++ ext ∧ Out.interest n t ∈ ext

theorem Asked.more {l : List Out} {s s' : Full} (h : Asked l s) (hl : s.log <+: s'.log) : Asked l s' := by
  obtain ⟨ext, n, t, h1, h2⟩ := h
  obtain ⟨e, he⟩ := hl
  exact ⟨ext ++ e, n, t, by rw [← he, h1, List.append_assoc], by simp [h2]⟩

theorem Act.log {cfg : Cfg} {s s' : Full} (h : Act cfg s s') : s.log <+: s'.log := by
  cases h with
  | tells os _ h _ => rw [h]; exact List.prefix_append _ _
  | free _ h => rw [h]; exact List.prefix_rfl
  | send h =>
    rcases sendSyncInterest_ok h with ⟨_, rfl⟩ | ⟨_, name, _, ⟨_, _, rfl⟩ | ⟨_, rfl⟩⟩
    · exact List.prefix_rfl
    · exact List.prefix_rfl
    · exact List.prefix_append _ _
  | own p limit now v buf fr r _ _ h => rw [h]; exact List.prefix_append _ _

theorem Acts.log {cfg : Cfg} {s s' : Full} (h : Acts cfg s s') : s.log <+: s'.log :=
  h.inv (P := fun x => s.log <+: x.log) (fun _ _ ha hab => ha.trans hab.log) List.prefix_rfl

/-- Either an Interest was sent since the log was `l`, or no fetch is going on and `P` holds for the timer. -/
def Idle (P : Option (Nat × SyncKind) → Prop) (l : List Out) (s : Full) : Prop :=
  Asked l s ∨ (l <+: s.log ∧ (∀ f, s.fetcher = some f → f.active = false) ∧ P s.sched)

theorem Act.idle {cfg : Cfg} {P : Option (Nat × SyncKind) → Prop} {l : List Out} {s s' : Full} (hs : Idle P l s)
    (h : Act cfg s s') : Idle P l s' := by
  rcases hs with hs | ⟨hl, hi, hp⟩
  · exact Or.inl (hs.more h.log)
  have hl' := hl.trans h.log
  cases h with
  | tells os e _ _ => exact Or.inr ⟨hl', by rw [e.fetcher]; exact hi, by rw [e.sched]; exact hp⟩
  | free e _ => exact Or.inr ⟨hl', by rw [e.fetcher]; exact hi, by rw [e.sched]; exact hp⟩
  | send h =>
    rcases sendSyncInterest_ok h with ⟨_, rfl⟩ | ⟨_, name, _, ⟨_, _, rfl⟩ | ⟨_, rfl⟩⟩
    · exact Or.inr ⟨hl, hi, hp⟩
    · exact Or.inr ⟨hl, stop_idle s, hp⟩
    · obtain ⟨e, he⟩ := hl
      exact Or.inl ⟨e ++ [.interest name cfg.lifetime], name, cfg.lifetime, by simp [← he], by simp⟩
  | own p limit now v buf fr r _ e _ =>
    exact Or.inr ⟨hl', by rw [e.fetcher]; exact stop_idle s, by rw [e.sched]; exact hp⟩

theorem Acts.idle {cfg : Cfg} {P : Option (Nat × SyncKind) → Prop} {l : List Out} {s s' : Full} (hs : Idle P l s)
    (h : Acts cfg s s') : Idle P l s' := h.inv (fun _ _ ha hab => Act.idle ha hab) hs

/-- The timer runs at `D` at the latest. -/
def By (D : Nat) (x : Option (Nat × SyncKind)) : Prop := ∃ d k, x = some (d, k) ∧ d ≤ D

theorem Idle.mono {P Q : Option (Nat × SyncKind) → Prop} {l : List Out} {s : Full} (h : Idle P l s) (hpq : ∀ x, P x → Q x) :
    Idle Q l s := h.imp id (fun ⟨h1, h2, h3⟩ => ⟨h1, h2, hpq _ h3⟩)

/-- The timer, when it is due, sends an Interest. -/
theorem fire_asked {cfg : Cfg} (hwf : cfg.WF) {l : List Out} {s s' : Full} (hr : Reach cfg s) (hl : l <+: s.log) {d : Nat} {k : SyncKind}
    (hd : s.sched = some (d, k)) (hdue : d ≤ s.now) (h : step cfg s .fireSync = .ok s') : Asked l s' := by
  obtain ⟨s1, n, e1, _, e3, _⟩ := c32_transmits cfg hwf s hr d k hd hdue
  rw [h, Res.ok.injEq] at e1
  subst e1
  obtain ⟨e, he⟩ := hl
  exact ⟨e ++ [.interest n cfg.lifetime], n, cfg.lifetime, by rw [e3, ← he, List.append_assoc], by simp⟩

theorem step_due {cfg : Cfg} (hwf : cfg.WF) {D : Nat} {l : List Out} {s s' : Full} {op : Op} (hr : Reach cfg s)
    (hs : Idle (By D) l s) (h : step cfg s op = .ok s') : Idle (By D) l s' := by
  rcases hs with hs | ⟨hl, hi, hp⟩
  · exact Or.inl (hs.more (step_micro (reach_inv hr) h).log)
  rcases step_acts h with ha | ⟨t, rfl, _, _, rfl⟩ | ⟨d, k, s0, rfl, hd, hdue, _, _⟩ | ⟨f, t, _, hf, ha, _⟩ |
    ⟨f, buf, acts, _, hf, ha, _⟩
  · exact Acts.idle (Or.inr ⟨hl, hi, hp⟩) ha
  · exact Or.inr ⟨hl, hi, hp⟩
  · exact Or.inl (fire_asked hwf hr hl hd hdue h)
  · have := hi f hf; rw [ha] at this; cases this
  · have := hi f hf; rw [ha] at this; cases this

theorem run_due {cfg : Cfg} (hwf : cfg.WF) {D : Nat} {l : List Out} {ops : List Op} : ∀ {s s' : Full}, Reach cfg s →
    Idle (By D) l s → run cfg s ops = .ok s' → D + cfg.lag < s'.now → Asked l s' := by
  induction ops with
  | nil =>
    intro s s' hr hs h hd
    simp only [run, foldRes, Res.ok.injEq] at h
    subst h
    rcases hs with hs | ⟨_, _, d, k, h1, h2⟩
    · exact hs
    · obtain ⟨d', k', e1, e2, _⟩ := reach_alive hwf hr
      rw [h1, Option.some.injEq, Prod.mk.injEq] at e1
      omega
  | cons op ops ih =>
    intro s s' hr hs h hd
    simp only [run, foldRes, Res.bind_eq_ok] at h
    obtain ⟨s1, h1, h2⟩ := h
    exact ih (hr.next h1) (step_due hwf hr hs h1) h2 hd

/-- The next Interest after an error. -/
theorem error_due {cfg : Cfg} (hwf : cfg.WF) {s s' : Full} {f : Fetcher} (hf : s.fetcher = some f) (ha : f.active = true)
    (h : step cfg s (.error false) = .ok s') : Idle (By (s.now + 500)) s.log s' := by
  simp only [step, hf, ha, if_true, Bool.false_eq_true, if_false, Res.ok.injEq] at h
  subst h
  have := hwf.jitter_hi s.draws
  simp only [MAX_JITTER] at this
  exact Or.inr ⟨List.prefix_rfl, stop_idle s, _, _, rfl, by simp only [stopFetcher]; omega⟩

/-- The next Interest after a reply. -/
theorem complete_due {cfg : Cfg} (hwf : cfg.WF) {D : Nat} {l : List Out} {s s' : Full} (hl : l <+: s.log) (hD : By D s.sched)
    {buf : Bytes} {acts : List Call} {f : Fetcher}
    (h : onSyncData cfg s.stopFetcher f.name buf acts = .ok s') :
    ((∀ us, Out.update us ∉ newOutput s s') ∧ Idle (By D) l s') ∨ ((∀ us, Out.update us ∉ newOutput s s') ∧ Idle (By (s.now + cfg.freshness + 500)) l s') ∨
    Idle (By (s.now + 500)) l s' := by
  have hhi := hwf.jitter_hi s.draws
  simp only [MAX_JITTER] at hhi
  rcases onSyncData_acts h with ⟨h0, rfl⟩ | ⟨ns, h0, h1, h2, h3, h4, h5, h6, h7⟩ | ⟨ns, us, s1, h0, h1, h2⟩
  · exact Or.inl ⟨by simp [newOutput, stopFetcher, deletePending], Or.inr ⟨hl, stop_idle s, hD⟩⟩
  · refine Or.inr (Or.inl ⟨?_, Or.inr ⟨by rw [h7]; exact hl, by rw [h3]; exact stop_idle s, _, _, h2, ?_⟩⟩)
    · intro us
      unfold newOutput
      rw [h7]
      simp [stopFetcher]
    · simp only [stopFetcher]; omega
  · refine Or.inr (Or.inr (Acts.idle ?_ h2))
    have h3 : Idle (fun _ => True) l s1 := Acts.idle (s := s.stopFetcher.emit (.update us))
      (Or.inr ⟨hl.trans (List.prefix_append _ _), stop_idle s, trivial⟩) h1
    have h4 := h1.now
    have hhi := hwf.jitter_hi s1.draws
    simp only [MAX_JITTER] at hhi
    rcases h3 with h3 | ⟨e1, e2, _⟩
    · exact Or.inl (h3.more List.prefix_rfl)
    · refine Or.inr ⟨e1, e2, _, _, rfl, ?_⟩
      simp only [emit, stopFetcher] at h4
      omega

/-! While a fetch goes on, the next Interest is due after lifetime/2 + 500 ms. -/

def Quick (cfg : Cfg) (s : Full) : Prop :=
  ∀ f, s.fetcher = some f → f.active = true → By (s.now + cfg.lifetime / 2 + 500) s.sched

theorem quick_idle {cfg : Cfg} {s : Full} (h : ∀ f, s.fetcher = some f → f.active = false) : Quick cfg s := by
  intro f hf ha
  rw [h f hf] at ha
  cases ha

theorem Act.quick {cfg : Cfg} (hwf : cfg.WF) {s s' : Full} (hs : Quick cfg s) (h : Act cfg s s') : Quick cfg s' := by
  cases h with
  | tells os e _ _ =>
    intro f hf ha
    rw [e.now, e.sched]
    exact hs f (e.fetcher ▸ hf) ha
  | free e _ =>
    intro f hf ha
    rw [e.now, e.sched]
    exact hs f (e.fetcher ▸ hf) ha
  | send h =>
    rcases sendSyncInterest_ok h with ⟨_, rfl⟩ | ⟨_, name, _, ⟨_, _, rfl⟩ | ⟨_, rfl⟩⟩
    · exact hs
    · exact quick_idle (stop_idle s)
    · intro f _ _
      have := hwf.jitter_hi s.draws
      simp only [MAX_JITTER] at this
      exact ⟨_, _, rfl, by simp only; omega⟩
  | own p limit now v buf fr r _ e _ => exact quick_idle (fun f hf => stop_idle s f (e.fetcher ▸ hf))

theorem Acts.quick {cfg : Cfg} (hwf : cfg.WF) {s s' : Full} (hs : Quick cfg s) (h : Acts cfg s s') : Quick cfg s' :=
  h.inv (fun _ _ ha hab => Act.quick hwf ha hab) hs

theorem step_quick {cfg : Cfg} (hwf : cfg.WF) {s s' : Full} {op : Op} (hr : Reach cfg s) (hs : Quick cfg s)
    (h : step cfg s op = .ok s') : Quick cfg s' := by
  rcases step_acts h with ha | ⟨t, rfl, ht, _, rfl⟩ | ⟨d, k, s0, rfl, hd, hdue, h0, h1⟩ | ⟨f, t, _, hf, ha, rfl⟩ |
    ⟨f, buf, acts, _, hf, ha, h1⟩
  · exact ha.quick hwf hs
  · intro f hf ha
    obtain ⟨d, k, h1, h2⟩ := hs f hf ha
    exact ⟨d, k, h1, by simp only; omega⟩
  · rcases sendSyncInterest_ok h1 with ⟨hw, rfl⟩ | ⟨_, name, _, ⟨_, _, rfl⟩ | ⟨_, rfl⟩⟩
    · rcases h0 with rfl | rfl
      · obtain ⟨_, _, _, _, _, _, e⟩ := reach_alive hwf hr
        exact quick_idle (e hw).2
      · cases hw
    · exact quick_idle (stop_idle _)
    · intro f _ _
      have := hwf.jitter_hi s0.draws
      simp only [MAX_JITTER] at this
      exact ⟨_, _, rfl, by simp only; omega⟩
  · refine quick_idle ?_
    split
    · exact stop_idle s
    · exact stop_idle s
  · rcases onSyncData_acts h1 with ⟨h0, rfl⟩ | ⟨ns, h0, _, _, h3, _⟩ | ⟨ns, us, s1, h0, h2, h3⟩
    · exact quick_idle (stop_idle s)
    · exact quick_idle (by rw [h3]; exact stop_idle s)
    · refine h3.quick hwf ?_
      intro f _ _
      have := hwf.jitter_hi s1.draws
      simp only [MAX_JITTER] at this
      exact ⟨_, _, rfl, by simp only; omega⟩

theorem run_quick {cfg : Cfg} (hwf : cfg.WF) {ops : List Op} : ∀ {s s' : Full}, Reach cfg s → Quick cfg s → run cfg s ops = .ok s' →
    Quick cfg s' := by
  induction ops with
  | nil => intro s s' _ hs h; simp only [run, foldRes, Res.ok.injEq] at h; subst h; exact hs
  | cons op ops ih =>
    intro s s' hr hs h
    simp only [run, foldRes, Res.bind_eq_ok] at h
    obtain ⟨s1, h1, h2⟩ := h
    exact ih (hr.next h1) (step_quick hwf hr hs h1) h2

theorem reach_quick {cfg : Cfg} (hwf : cfg.WF) {s : Full} (h : Reach cfg s) : Quick cfg s := by
  obtain ⟨s0, ops, h1, h2⟩ := h
  refine run_quick hwf ⟨s0, [], h1, rfl⟩ ?_ h2
  unfold init at h1
  exact Act.quick hwf (quick_idle (by simp [fresh])) (.send h1)

theorem run_log {cfg : Cfg} {ops : List Op} : ∀ {s s' : Full}, Reach cfg s → run cfg s ops = .ok s' → s.log <+: s'.log := by
  induction ops with
  | nil => intro s s' _ h; simp only [run, foldRes, Res.ok.injEq] at h; subst h; exact List.prefix_rfl
  | cons op ops ih =>
    intro s s' hr h
    simp only [run, foldRes, Res.bind_eq_ok] at h
    obtain ⟨s1, h1, h2⟩ := h
    exact (step_micro (reach_inv hr) h1).log.trans (ih (hr.next h1) h2)

theorem Act.sched {cfg : Cfg} {l : List Out} {x : Option (Nat × SyncKind)} {s s' : Full} (hs : Asked l s ∨ (l <+: s.log ∧ s.sched = x))
    (h : Act cfg s s') : Asked l s' ∨ (l <+: s'.log ∧ s'.sched = x) := by
  rcases hs with hs | ⟨hl, hp⟩
  · exact Or.inl (hs.more h.log)
  have hl' := hl.trans h.log
  cases h with
  | tells os e _ _ => exact Or.inr ⟨hl', e.sched.trans hp⟩
  | free e _ => exact Or.inr ⟨hl', e.sched.trans hp⟩
  | send h =>
    rcases sendSyncInterest_ok h with ⟨_, rfl⟩ | ⟨_, name, _, ⟨_, _, rfl⟩ | ⟨_, rfl⟩⟩
    · exact Or.inr ⟨hl, hp⟩
    · exact Or.inr ⟨hl, hp⟩
    · obtain ⟨e, he⟩ := hl
      exact Or.inl ⟨e ++ [.interest name cfg.lifetime], name, cfg.lifetime, by simp [← he], by simp⟩
  | own p limit now v buf fr r _ e _ => exact Or.inr ⟨hl', e.sched.trans hp⟩

/-- A node that fetches and has not asked since the log was `l`, or as in `run_due`. -/
theorem run_busy {cfg : Cfg} (hwf : cfg.WF) {D : Nat} {l : List Out} {ops : List Op} : ∀ {s s' : Full}, Reach cfg s →
    l <+: s.log → By D s.sched → run cfg s ops = .ok s' → D + cfg.freshness + 500 + 2 * cfg.lag < s'.now → Asked l s' := by
  induction ops with
  | nil =>
    intro s s' hr _ hs h hd
    simp only [run, foldRes, Res.ok.injEq] at h
    subst h
    obtain ⟨d, k, h1, h2⟩ := hs
    obtain ⟨d', k', e1, e2, _⟩ := reach_alive hwf hr
    rw [h1, Option.some.injEq, Prod.mk.injEq] at e1
    omega
  | cons op ops ih =>
    intro s s' hr hl hs h hd
    simp only [run, foldRes, Res.bind_eq_ok] at h
    obtain ⟨s1, h1, h2⟩ := h
    have hr1 : Reach cfg s1 := hr.next h1
    have hnow : s.now ≤ D + cfg.lag := by
      obtain ⟨d, k, h1, h2⟩ := hs
      obtain ⟨d', k', e1, e2, _⟩ := reach_alive hwf hr
      rw [h1, Option.some.injEq, Prod.mk.injEq] at e1
      omega
    rcases step_acts h1 with ha | ⟨t, rfl, ht, _, rfl⟩ | ⟨d, k, s0, rfl, hd, hdue, _, _⟩ | ⟨f, t, rfl, hf, ha, rfl⟩ |
      ⟨f, buf, acts, rfl, hf, ha, h3⟩
    · rcases ha.inv (P := fun y => Asked l y ∨ (l <+: y.log ∧ y.sched = s.sched)) (fun _ _ ha hab => Act.sched ha hab)
        (Or.inr ⟨hl, rfl⟩) with h4 | ⟨h4, h5⟩
      · exact h4.more (run_log hr1 h2)
      · exact ih hr1 h4 (h5 ▸ hs) h2 hd
    · exact ih hr1 hl hs h2 hd
    · exact (fire_asked hwf hr hl hd hdue h1).more (run_log hr1 h2)
    · cases t with
      | true => exact ih hr1 hl hs h2 hd
      | false =>
        refine run_due (D := D + cfg.freshness + 500 + cfg.lag) hwf hr1 ?_ h2 (by omega)
        have := hwf.jitter_hi s.draws
        simp only [MAX_JITTER] at this
        exact Or.inr ⟨hl, stop_idle s, _, _, rfl, by omega⟩
    · refine run_due (D := D + cfg.freshness + 500 + cfg.lag) hwf hr1 ?_ h2 (by omega)
      rcases complete_due hwf hl hs h3 with ⟨_, h4⟩ | ⟨_, h4⟩ | h4
      · exact h4.mono (fun x ⟨d, k, e1, e2⟩ => ⟨d, k, e1, by omega⟩)
      · exact h4.mono (fun x ⟨d, k, e1, e2⟩ => ⟨d, k, e1, by omega⟩)
      · exact h4.mono (fun x ⟨d, k, e1, e2⟩ => ⟨d, k, e1, by omega⟩)

end Full
end PSync
