import Verif.Proofs.AskRate
import Verif.Props.Pace
/-!
Property C99: how many sync Interests a node sends.
-/
namespace PSync
open Spec

/-- C99, one event: an Interest that is received makes the node send one Interest at most. -/
theorem c99_each (cfg : Cfg) (s s' : Full) (i : Interest) (h : Full.step cfg s (.recvInterest i) = .ok s') :
    askCount s'.log ≤ askCount s.log + 1 := by
  simp only [Full.step] at h
  split at h
  · exact (Full.onSyncInterest_asking h).asks_le
  · cases h; exact Nat.le_succ _

theorem c99_init {cfg : Cfg} (hwf : cfg.WF) {s0 : Full} (h0 : Full.init cfg = .ok s0) {g : Nat} (hg : g ≤ cfg.lifetime / 2 + 100) :
    Full.askDue s0 ≤ 1 ∧ Full.FiredFar g 0 0 s0 := by
  obtain ⟨hl, hp, hw⟩ := Full.init_lists h0
  have ha := Full.sendSyncInterest_asks h0
  have hz : Full.asks (Full.fresh cfg) = 0 := rfl
  constructor
  · unfold Full.askDue
    rw [hp, hw]
    simp only [List.length_nil, Full.unmarked, List.countP_nil]
    omega
  · have hlo := hwf.jitter_lo 0
    simp only [MIN_JITTER] at hlo
    rcases Full.sendSyncInterest_ok h0 with ⟨h1, _⟩ | ⟨_, name, _, ⟨h1, _⟩ | ⟨_, rfl⟩⟩
    · cases h1
    · cases h1
    · refine ⟨_, _, rfl, ?_, ?_⟩
      · simp
      · simp only [Full.fresh]; omega

/-- C99: a node has sent no more sync Interests than one at the start, one for every 100 ms since, and one for every sync Interest
it received.  What it fetches, what it publishes and how often its fetches fail does not matter. -/
theorem c99_bound (cfg : Cfg) (hwf : cfg.WF) (s0 s : Full) (ops : List Full.Op) (h0 : Full.init cfg = .ok s0)
    (h : Full.run cfg s0 ops = .ok s) : askCount s.log ≤ 1 + s.now / 100 + ops.countP (fullAccepts cfg) := by
  obtain ⟨h1, h2⟩ := c99_init hwf h0 (g := 100) (by omega)
  obtain ⟨d, k, _, h3, _⟩ := Full.run_firedFar hwf (by omega) ops ⟨s0, [], h0, rfl⟩ (fun _ _ => Or.inl (le_refl _)) h2 h
  have h4 := Full.run_askDue ops (Full.init_lists h0).1 h
  have h5 : askCount s.log ≤ Full.askDue s := by unfold Full.askDue Full.asks; omega
  have h6 : Full.firings cfg s0 ops ≤ s.now / 100 := by
    rw [Nat.le_div_iff_mul_le (by omega)]
    omega
  omega

/-- C99 for a node that nobody answers: if every fetch times out, it is one Interest for every syncInterestLifetime/2 + 100 ms. -/
theorem c99_alone (cfg : Cfg) (hwf : cfg.WF) (s0 s : Full) (ops : List Full.Op) (h0 : Full.init cfg = .ok s0)
    (hu : ∀ op ∈ ops, Unheard op) (h : Full.run cfg s0 ops = .ok s) :
    askCount s.log ≤ 1 + s.now / (cfg.lifetime / 2 + 100) + ops.countP (fullAccepts cfg) := by
  obtain ⟨h1, h2⟩ := c99_init hwf h0 (g := cfg.lifetime / 2 + 100) (le_refl _)
  obtain ⟨d, k, _, h3, _⟩ := Full.run_firedFar hwf (le_refl _) ops ⟨s0, [], h0, rfl⟩ (fun op ho => Or.inr (hu op ho)) h2 h
  have h4 := Full.run_askDue ops (Full.init_lists h0).1 h
  have h5 : askCount s.log ≤ Full.askDue s := by unfold Full.askDue Full.asks; omega
  have h6 : Full.firings cfg s0 ops ≤ s.now / (cfg.lifetime / 2 + 100) := by
    rw [Nat.le_div_iff_mul_le (by omega)]
    simpa using h3
  omega

/-- C99 between two moments: one Interest more for the timer, and one for each Interest that is parked or delayed at the first. -/
theorem c99_between (cfg : Cfg) (hwf : cfg.WF) (s s2 : Full) (hr : Full.Reach cfg s) (ops : List Full.Op)
    (h : Full.run cfg s ops = .ok s2) :
    askCount s2.log ≤ askCount s.log + 1 + (s2.now - s.now) / 100 + ops.countP (fullAccepts cfg) +
      s.pending.length + s.waiting.length := by
  obtain ⟨d, k, e1, _⟩ := Full.reach_alive hwf hr
  have h2 : Full.Fired 100 s.now 0 s := ⟨d, k, e1, by omega, Or.inl rfl, le_refl _⟩
  obtain ⟨_, _, _, h3, _, h3'⟩ := Full.run_fired hwf (by omega) ops hr (fun _ _ => Or.inl (le_refl _)) h2 h
  have h4 := Full.run_askDue ops (Full.reach_lists hr) h
  have h5 : askCount s2.log ≤ Full.askDue s2 := by unfold Full.askDue Full.asks; omega
  have h5' : Full.askDue s ≤ askCount s.log + s.pending.length + s.waiting.length := by
    unfold Full.askDue Full.asks Full.unmarked
    have := List.countP_le_length (p := fun e : Name × Waiting => decide (e.2.numTries ≠ MAX_TRIES)) (l := s.waiting)
    omega
  have h6 : Full.firings cfg s ops ≤ 1 + (s2.now - s.now) / 100 := by
    have : Full.firings cfg s ops - 1 ≤ (s2.now - s.now) / 100 := by
      rw [Nat.le_div_iff_mul_le (by omega), Nat.sub_mul]
      omega
    omega
  omega

/-- Non-vacuity for C99: two fetches are refused, and at 202 ms the node has sent as many Interests as the bound allows. -/
example : (Res.bind (Full.init sampleCfg) fun s => Full.run sampleCfg s
      [.error false, .tick 101, .fireSync, .error false, .tick 202, .fireSync]).get?.map (fun s : Full =>
        (askCount s.log, 1 + s.now / 100)) = some (3, 3) := by decide +kernel

/-- Non-vacuity for C99 without answers: the timer fires at 600 ms, the node hears its own Interest, and answers it when the
application publishes; again the bound is met exactly. -/
example : (Res.bind (Full.init sampleCfg) fun s => Full.run sampleCfg s
      [.call (.addUserNode pA), .tick 600, .fireSync, .recvInterest emptyInterest, .tick 650, .call (.publishName pA none)]).get?.map
      (fun s : Full => (askCount s.log, 1 + s.now / (sampleCfg.lifetime / 2 + 100) + 1)) = some (3, 3) := by decide +kernel

/-- Non-vacuity for C99 between two moments: one Interest is parked at 650 ms, and publishing makes the node ask again. -/
example : (Res.bind (Full.init sampleCfg) fun s => Full.run sampleCfg s
      [.call (.addUserNode pA), .tick 600, .fireSync, .recvInterest emptyInterest, .tick 650]).get?.bind (fun s =>
        (Full.run sampleCfg s [.call (.publishName pA none)]).get?.map (fun s2 : Full =>
          (s.pending.length, s.waiting.length, askCount s.log, askCount s2.log))) = some (1, 0, 2, 3) := by decide +kernel

end PSync
