import Verif.Proofs.Alive
import Verif.Proofs.Group
/-!
The wait after a reply that brought nothing: no sync Interest is sent before the timer runs.
-/
namespace PSync
open Spec
namespace Full

/-- The node waits until `d` and has sent no Interest since the log was `l`. -/
structure Held (d : Nat) (l : List Out) (s : Full) : Prop where
  waits : s.waitOut = true
  sched : s.sched = some (d, .waitOut)
  idle : ∀ f, s.fetcher = some f → f.active = false
  silent : ∃ ext, s.log = l ++ ext ∧ ∀ n t, Out.interest n t ∉ ext

theorem Held.congr {d : Nat} {l : List Out} {s s' : Full} (h : Held d l s) (h1 : s'.waitOut = s.waitOut)
    (h2 : s'.sched = s.sched) (h3 : s'.fetcher = s.fetcher) (h4 : s'.log = s.log) : Held d l s' := by
  obtain ⟨e1, e2, e3, e4⟩ := h
  exact ⟨h1 ▸ e1, h2 ▸ e2, h3 ▸ e3, h4 ▸ e4⟩

theorem Held.says {d : Nat} {l : List Out} {s s' : Full} (h : Held d l s) (h1 : s'.waitOut = s.waitOut)
    (h2 : s'.sched = s.sched) (h3 : s'.fetcher = s.fetcher) (ds : List Data) (h4 : s'.log = s.log ++ ds.map Out.data) :
    Held d l s' := by
  obtain ⟨e1, e2, e3, ext, e4, e5⟩ := h
  refine ⟨h1 ▸ e1, h2 ▸ e2, h3 ▸ e3, ext ++ ds.map Out.data, by rw [h4, e4, List.append_assoc], ?_⟩
  intro n t hm
  rcases List.mem_append.mp hm with hm | hm
  · exact e5 n t hm
  · simp at hm

theorem Held.stop {d : Nat} {l : List Out} {s : Full} (h : Held d l s) : Held d l s.stopFetcher := by
  obtain ⟨e1, e2, _, e4⟩ := h
  refine ⟨e1, e2, ?_, e4⟩
  intro f hf
  simp only [stopFetcher, Option.map_eq_some_iff] at hf
  obtain ⟨g, _, rfl⟩ := hf
  rfl

theorem sendSyncInterest_held {cfg : Cfg} {d : Nat} {l : List Out} {s s' : Full} (hs : Held d l s)
    (h : sendSyncInterest cfg s = .ok s') : Held d l s' := by
  rcases sendSyncInterest_ok h with ⟨_, rfl⟩ | ⟨hw, _⟩
  · exact hs
  · rw [hs.waits] at hw; cases hw

theorem sendSyncData_held {cfg : Cfg} {d : Nat} {l : List Out} {s s' : Full} {name : Name} {c : Bytes} {fr : Nat}
    (hs : Held d l s) (h : sendSyncData cfg s name c fr = .ok s') : Held d l s' := by
  unfold sendSyncData at h
  simp only [Res.bind_eq_ok] at h
  obtain ⟨buf, _, s1, h1, h2⟩ := h
  have h0 : Held d l (if (decide (s.outstanding = name) && s.fetcher.isSome) = true then
      { s.stopFetcher with outstanding := [] } else s) := by
    split
    · exact hs.stop.congr rfl rfl rfl rfl
    · exact hs
  obtain ⟨r, _, rfl⟩ := publish_ok h1
  have h3 := h0.says (s' := { (if (decide (s.outstanding = name) && s.fetcher.isSome) = true then
      { s.stopFetcher with outstanding := [] } else s) with pub := r.1, replies := (if (decide (s.outstanding = name) && s.fetcher.isSome) = true then
      { s.stopFetcher with outstanding := [] } else s).replies ++ [(name, buf, fr)], log := (if (decide (s.outstanding = name) && s.fetcher.isSome) = true then
      { s.stopFetcher with outstanding := [] } else s).log ++ r.2.map Out.data }) rfl rfl rfl r.2 rfl
  split at h2
  · exact sendSyncInterest_held h3 h2
  · cases h2; exact h3

theorem markWaiting_held {d : Nat} {l : List Out} {s : Full} (n : Name) (h : Held d l s) : Held d l (s.markWaiting n) := by
  rw [markWaiting_eq]
  exact h.congr rfl rfl rfl rfl

theorem scheduleProcess_held {cfg : Cfg} {d : Nat} {l : List Out} {s : Full} (h : Held d l s) :
    Held d l (scheduleProcess cfg s) := by
  rw [scheduleProcess_eq]
  exact h.congr rfl rfl rfl rfl

theorem waitOrGiveUp_held {cfg : Cfg} {d : Nat} {l : List Out} {s : Full} (i : Interest) (t : Bool) (h : Held d l s) :
    Held d l (waitOrGiveUp cfg s i t).1 := by
  unfold waitOrGiveUp
  split
  · split
    · exact scheduleProcess_held (h.congr rfl rfl rfl rfl)
    · exact h
  · split
    · split
      · exact markWaiting_held _ h
      · exact h
    · exact h

theorem onSyncInterest_held {cfg : Cfg} {d : Nat} {l : List Out} {s s' : Full} {i : Interest} {t : Bool} (hs : Held d l s)
    (h : onSyncInterest cfg s i t = .ok s') : Held d l s' := by
  rcases onSyncInterest_cases h with ⟨x, _, rfl⟩ | ⟨_, ⟨x, _, _, rfl⟩ | rfl | ⟨c2, c1, num, ib, df, _, _, _, _, _, _, h1⟩⟩
  · exact hs.says rfl rfl rfl [x] rfl
  · exact hs.says rfl rfl rfl [x] rfl
  · exact hs
  · rcases h1 with ⟨_, h1⟩ | ⟨_, h1⟩
    · unfold onUndecodable at h1
      split at h1
      · have hw := waitOrGiveUp_held (cfg := cfg) i t hs
        generalize waitOrGiveUp cfg s i t = x at h1 hw
        obtain ⟨s1, g⟩ := x
        cases g
        · simp only [Res.ok.injEq] at h1; subst h1; exact hw
        · exact sendSyncInterest_held hw h1
      · split at h1
        · cases h1; exact hs
        · simp only at h1
          split at h1
          · cases h1; exact markWaiting_held _ hs
          · simp only [Res.bind_eq_ok, Res.ok.injEq] at h1
            obtain ⟨s1, h2, rfl⟩ := h1
            exact markWaiting_held _ ((sendSyncData_held hs h2).congr rfl rfl rfl rfl)
    · unfold onDecoded at h1
      split at h1
      · simp only [Res.ok.injEq] at h1
        subst h1
        split
        · exact markWaiting_held _ (hs.congr rfl rfl rfl rfl)
        · exact hs.congr rfl rfl rfl rfl
      · split at h1
        · simp only [Res.ok.injEq] at h1
          subst h1
          exact waitOrGiveUp_held _ _ hs
        · generalize collect df.negative s.base df.positive [] = x at h1
          obtain ⟨content, b⟩ := x
          simp only at h1
          split at h1
          · cases h1; exact hs.congr rfl rfl rfl rfl
          · simp only [Res.bind_eq_ok, Res.ok.injEq] at h1
            obtain ⟨s1, h2, rfl⟩ := h1
            exact markWaiting_held _ (sendSyncData_held (s := { s with base := b }) (hs.congr rfl rfl rfl rfl) h2)

theorem processOne_held {cfg : Cfg} {d : Nat} {l : List Out} {s s' : Full} {n : Name} (hs : Held d l s)
    (h : processOne cfg s n = .ok s') : Held d l s' := by
  unfold processOne at h
  cases hw : s.waiting.find n with
  | none => simp only [hw, Res.ok.injEq] at h; subst h; exact hs
  | some w =>
    simp only [hw] at h
    split at h
    · cases h; exact hs.congr rfl rfl rfl rfl
    · simp only [Res.bind_eq_ok] at h
      obtain ⟨s1, h1, h2⟩ := h
      have h3 := onSyncInterest_held
        (s := { s with waiting := s.waiting.set n { w with numTries := w.numTries + 1 } }) (hs.congr rfl rfl rfl rfl) h1
      cases hw2 : s1.waiting.find n with
      | none => simp only [hw2, Res.ok.injEq] at h2; subst h2; exact h3
      | some w2 =>
        simp only [hw2] at h2
        split at h2
        · cases h2; exact h3.congr rfl rfl rfl rfl
        · cases h2; exact h3

/-- An event before the timer is due, other than a publication. -/
theorem step_held {cfg : Cfg} {d : Nat} {l : List Out} {s s' : Full} {op : Op} (hs : Held d l s) (hd : op = .fireSync → s.now < d)
    (hp : ∀ p, ¬ op.Publishes p) (h : step cfg s op = .ok s') : Held d l s' := by
  have hidle : ∀ f, s.fetcher = some f → ¬ f.active = true := fun f hf ha => by
    have := hs.idle f hf; rw [ha] at this; cases this
  cases op with
  | call c =>
    cases c with
    | addUserNode p => simp only [step, call, Res.ok.injEq] at h; subst h; exact hs.congr rfl rfl rfl rfl
    | removeUserNode p =>
      simp only [step, call, Res.bind_eq_ok, Res.ok.injEq] at h
      obtain ⟨b, _, rfl⟩ := h
      exact hs.congr rfl rfl rfl rfl
    | publishName p q => exact absurd rfl (hp p)
  | recvInterest i =>
    simp only [step] at h
    split at h
    · exact onSyncInterest_held hs h
    · cases h; exact hs
  | segment f =>
    simp only [step] at h
    split at h
    · cases h
      split
      · exact hs.congr rfl rfl rfl rfl
      · exact hs
    · cases h; exact hs
  | complete buf acts =>
    simp only [step] at h
    split at h
    · rename_i f hf
      rw [if_neg (hidle f hf)] at h
      cases h; exact hs
    · cases h; exact hs
  | error t =>
    simp only [step] at h
    split at h
    · rename_i f hf
      rw [if_neg (hidle f hf)] at h
      cases h; exact hs
    · cases h; exact hs
  | tick t =>
    simp only [step, Res.ok.injEq] at h
    subst h
    split
    · exact hs.congr rfl rfl rfl rfl
    · exact hs
  | fireSync =>
    simp only [step, hs.sched] at h
    have := hd rfl
    rw [if_neg (by omega)] at h
    cases h; exact hs
  | fireDelay =>
    simp only [step] at h
    split at h
    · split at h
      · simp only [Res.bind_eq_ok, Res.ok.injEq] at h
        obtain ⟨s1, h1, rfl⟩ := h
        refine scheduleProcess_held (foldRes_inv (P := Held d l) _ (fun _ _ _ _ hs h => processOne_held hs h) ?_ h1)
        exact hs.congr rfl rfl rfl rfl
      · cases h; exact hs
    · cases h; exact hs
  | expire n =>
    simp only [step] at h
    split at h
    · cases h
      split
      · exact hs.congr rfl rfl rfl rfl
      · exact hs
    · cases h; exact hs
  | fireStore => simp only [step, Res.ok.injEq] at h; subst h; exact hs.congr rfl rfl rfl rfl

theorem mergeRel_first {b b' : Base} {us : List MissingDataInfo} (h : MergeRel b us b') (hne : us ≠ []) :
    ∃ u ∈ us, ∃ b1, isNewer b u.pfx u.highSeq = true ∧ (b.addUserNode u.pfx).2.updateSeqNo u.pfx u.highSeq = .ok b1 ∧
      ∃ us', MergeRel b1 us' b' := by
  cases h with
  | nil => exact absurd rfl hne
  | newer p q face hq hnew h5 h6 => exact ⟨_, List.mem_cons_self, _, hnew, h5, _, h6⟩

/-- A reply without news starts the wait. -/
theorem complete_held {cfg : Cfg} {s s' : Full} (hs : s.base.Inv) {buf : Bytes} {acts : List Call} {f : Fetcher}
    (hf : s.fetcher = some f) (ha : f.active = true) {ns : List Name} (hdec : decodeReply cfg buf = some ns)
    (hno : (∀ us, Out.update us ∉ newOutput s s') ∨
      (Covers s'.base.getSeqNo s.base.getSeqNo ∧ (∀ n ∈ ns, ∀ p q, announced n = some (p, q) → q ≠ 0) ∧
        ∀ c ∈ acts, ∀ p, ¬ c.Removes p))
    (h : step cfg s (.complete buf acts) = .ok s') :
    Held (s.now + (cfg.freshness + cfg.jitter s.draws)) s'.log s' ∧ s'.now = s.now ∧ s'.log = s.log := by
  simp only [step, hf, ha, if_true] at h
  have hidle : ∀ f, s.stopFetcher.fetcher = some f → f.active = false := by
    intro f hf
    simp only [stopFetcher, Option.map_eq_some_iff] at hf
    obtain ⟨g, _, rfl⟩ := hf
    rfl
  rcases onSyncData_cases (s := s.stopFetcher) hs h with ⟨h1, _⟩ | ⟨ns', r, h1, h2, hinv, ⟨_, _, rfl⟩ | ⟨hne, s1, h3, hinv1, hb, h4⟩⟩
  · rw [hdec] at h1; cases h1
  · exact ⟨⟨rfl, rfl, hidle, [], by simp, by simp⟩, rfl, rfl⟩
  · exfalso
    rw [hdec, Option.some.injEq] at h1
    subst h1
    obtain ⟨us, hu, hm, hann⟩ := merge_rel _ h2
    rw [List.nil_append] at hu
    rcases hno with hno | ⟨hcov, hpos, hacts⟩
    · have m2 := calls_micro (M := fun _ => True) (s := ({ s.stopFetcher.deletePending f.name with base := r.2 } : Full).emit (.update r.1)) hinv h3
      have m3 := processWaiting_micro (R := fun _ => True) (L := fun _ _ => True)
        (M := fun _ => True) (s := { s1 with
          sched := some (s1.now + cfg.jitter s1.draws, .renew), draws := s1.draws + 1, waitOut := false }) hinv1 h4
      have hlog : s.log ++ [.update r.1] <+: s'.log := by
        have := m2.log.trans m3.log
        exact this
      obtain ⟨ext, hext⟩ := hlog
      refine hno r.1 ?_
      unfold newOutput
      rw [← hext, List.append_assoc, List.drop_left]
      simp
    · rw [hu] at hne
      obtain ⟨u, hu1, b1, hnew, h5, us', h6⟩ := mergeRel_first hm hne
      · obtain ⟨n, hn, hann'⟩ := hann _ hu1
        have hq0 := hpos n hn _ _ hann'
        generalize u.pfx = p at *
        generalize u.highSeq = q at *
        have hb1 : b1.getSeqNo p = some (max ((s.base.prefixes.find p).getD 0) q) := by
          have := merge_step_find h5 p
          rw [if_pos rfl] at this
          exact this
        have hst : Base.Steps (fun p => ∃ c ∈ acts, c.Removes p) b1 s'.base := by
          rw [hb]
          exact (h6.steps).trans (calls_steps h3)
        obtain ⟨y, hy, hle⟩ := hst.mono_seq (p := p) (by rintro ⟨c, hc, h⟩; exact hacts c hc p h) hb1
        obtain ⟨z, hz, hle'⟩ := hcov p y hy (by omega)
        have hz' : s.base.prefixes.find p = some z := hz
        have hnew' : z < q := by
          have : s.stopFetcher.base = s.base := rfl
          rw [this] at hnew
          unfold isNewer at hnew
          rw [hz'] at hnew
          simpa using hnew
        rw [hz'] at hle
        simp only [Option.getD_some] at hle
        omega

end Full
end PSync
