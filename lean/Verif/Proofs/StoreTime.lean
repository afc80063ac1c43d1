import Verif.Proofs.Alive
import Verif.Proofs.FairReply
/-!
How long packets stay in the segment store of a FullProducer.
-/
namespace PSync
open Spec
namespace Full

/-- It is `T`; no erasure of the segment store is overdue by more than the lag, and each
comes within the freshness of the reply. -/
structure Clocked (cfg : Cfg) (T : Nat) (s : Full) : Prop where
  now : s.now = T
  timers : ∀ e ∈ s.pub.timers, T ≤ e.1 + cfg.lag ∧ e.1 ≤ T + max cfg.freshness 10

theorem Clocked.congr {cfg : Cfg} {T : Nat} {s s' : Full} (h : Clocked cfg T s) (h1 : s'.now = s.now) (h2 : s'.pub = s.pub) :
    Clocked cfg T s' := by
  obtain ⟨e1, e2⟩ := h
  exact ⟨h1.trans e1, by rw [h2]; exact e2⟩

theorem sendSyncInterest_clocked {cfg : Cfg} {T : Nat} {s s' : Full} (hs : Clocked cfg T s)
    (h : sendSyncInterest cfg s = .ok s') : Clocked cfg T s' := by
  rcases sendSyncInterest_ok h with ⟨_, rfl⟩ | ⟨hw, name, hn, ⟨_, _, rfl⟩ | ⟨_, rfl⟩⟩
  · exact hs
  · exact hs.congr rfl rfl
  · exact hs.congr rfl rfl

theorem sendSyncData_clocked {cfg : Cfg} {T : Nat} {s s' : Full} {name : Name} {c : Bytes} {fr : Nat}
    (hfr : fr ≤ max cfg.freshness 10) (hs : Clocked cfg T s) (h : sendSyncData cfg s name c fr = .ok s') : Clocked cfg T s' := by
  unfold sendSyncData at h
  simp only [Res.bind_eq_ok] at h
  obtain ⟨buf, _, s1, h1, h2⟩ := h
  have h0 : Clocked cfg T (if (decide (s.outstanding = name) && s.fetcher.isSome) = true then
      { s.stopFetcher with outstanding := [] } else s) := by
    split
    · exact hs.congr rfl rfl
    · exact hs
  generalize (if (decide (s.outstanding = name) && s.fetcher.isSome) = true then
      { s.stopFetcher with outstanding := [] } else s) = s0 at h0 h1
  obtain ⟨r, hr, rfl⟩ := publish_ok h1
  have h3 : Clocked cfg T { s0 with pub := r.1, replies := s0.replies ++ [(name, buf, fr)], log := s0.log ++ r.2.map Out.data } := by
    refine ⟨h0.now, fun e he => ?_⟩
    simp only [(PSync.publish_ok hr).2.1] at he
    rcases List.mem_append.mp he with he | he
    · exact h0.timers e he
    · simp only [List.mem_map] at he
      obtain ⟨d, _, rfl⟩ := he
      simp only [h0.now]
      omega
  split at h2
  · exact sendSyncInterest_clocked h3 h2
  · cases h2; exact h3

theorem markWaiting_clocked {cfg : Cfg} {T : Nat} {s : Full} (n : Name) (h : Clocked cfg T s) : Clocked cfg T (s.markWaiting n) := by
  rw [markWaiting_eq]
  exact h.congr rfl rfl

theorem scheduleProcess_clocked {cfg : Cfg} {T : Nat} {s : Full} (h : Clocked cfg T s) :
    Clocked cfg T (scheduleProcess cfg s) := by
  rw [scheduleProcess_eq]
  exact h.congr rfl rfl

theorem waitOrGiveUp_clocked {cfg : Cfg} {T : Nat} {s : Full} (i : Interest) (t : Bool) (h : Clocked cfg T s) :
    Clocked cfg T (waitOrGiveUp cfg s i t).1 := by
  unfold waitOrGiveUp
  split
  · split
    · exact scheduleProcess_clocked (h.congr rfl rfl)
    · exact h
  · split
    · split
      · exact markWaiting_clocked _ h
      · exact h
    · exact h

theorem onSyncInterest_clocked {cfg : Cfg} {T : Nat} {s s' : Full} {i : Interest} {t : Bool} (hs : Clocked cfg T s)
    (h : onSyncInterest cfg s i t = .ok s') : Clocked cfg T s' := by
  rcases onSyncInterest_cases h with ⟨x, _, rfl⟩ | ⟨_, ⟨x, _, _, rfl⟩ | rfl | ⟨c2, c1, num, ib, df, _, _, _, _, _, _, h1⟩⟩
  · exact hs.congr rfl rfl
  · exact hs.congr rfl rfl
  · exact hs
  · rcases h1 with ⟨_, h1⟩ | ⟨_, h1⟩
    · unfold onUndecodable at h1
      split at h1
      · have hw := waitOrGiveUp_clocked (cfg := cfg) i t hs
        generalize waitOrGiveUp cfg s i t = x at h1 hw
        obtain ⟨s1, g⟩ := x
        cases g
        · simp only [Res.ok.injEq] at h1; subst h1; exact hw
        · exact sendSyncInterest_clocked hw h1
      · split at h1
        · cases h1; exact hs
        · simp only at h1
          split at h1
          · cases h1; exact markWaiting_clocked _ hs
          · simp only [Res.bind_eq_ok, Res.ok.injEq] at h1
            obtain ⟨s1, h2, rfl⟩ := h1
            exact markWaiting_clocked _ ((sendSyncData_clocked (by omega) hs h2).congr rfl rfl)
    · unfold onDecoded at h1
      split at h1
      · simp only [Res.ok.injEq] at h1
        subst h1
        split
        · exact markWaiting_clocked _ (hs.congr rfl rfl)
        · exact hs.congr rfl rfl
      · split at h1
        · simp only [Res.ok.injEq] at h1
          subst h1
          exact waitOrGiveUp_clocked _ _ hs
        · generalize collect df.negative s.base df.positive [] = x at h1
          obtain ⟨content, b⟩ := x
          simp only at h1
          split at h1
          · cases h1; exact hs.congr rfl rfl
          · simp only [Res.bind_eq_ok, Res.ok.injEq] at h1
            obtain ⟨s1, h2, rfl⟩ := h1
            exact markWaiting_clocked _ (sendSyncData_clocked (s := { s with base := b }) (by omega) (hs.congr rfl rfl) h2)

theorem processOne_clocked {cfg : Cfg} {T : Nat} {s s' : Full} {n : Name} (hs : Clocked cfg T s)
    (h : processOne cfg s n = .ok s') : Clocked cfg T s' := by
  unfold processOne at h
  cases hw : s.waiting.find n with
  | none => simp only [hw, Res.ok.injEq] at h; subst h; exact hs
  | some w =>
    simp only [hw] at h
    split at h
    · cases h; exact hs.congr rfl rfl
    · simp only [Res.bind_eq_ok] at h
      obtain ⟨s1, h1, h2⟩ := h
      have h3 := onSyncInterest_clocked
        (s := { s with waiting := s.waiting.set n { w with numTries := w.numTries + 1 } }) (hs.congr rfl rfl) h1
      cases hw2 : s1.waiting.find n with
      | none => simp only [hw2, Res.ok.injEq] at h2; subst h2; exact h3
      | some w2 =>
        simp only [hw2] at h2
        split at h2
        · cases h2; exact h3.congr rfl rfl
        · cases h2; exact h3

theorem processWaiting_clocked {cfg : Cfg} {T : Nat} {s s' : Full} (hs : Clocked cfg T s)
    (h : processWaiting cfg s = .ok s') : Clocked cfg T s' :=
  foldRes_inv (P := Clocked cfg T) _ (fun _ _ _ _ hs h => processOne_clocked hs h) hs h

theorem call_clocked {cfg : Cfg} {T : Nat} {s s' : Full} {c : Call} (hs : Clocked cfg T s)
    (h : call cfg s c = .ok s') : Clocked cfg T s' := by
  cases c with
  | addUserNode p =>
    simp only [call, Res.ok.injEq] at h
    subst h
    exact hs.congr rfl rfl
  | removeUserNode p =>
    simp only [call, Res.bind_eq_ok, Res.ok.injEq] at h
    obtain ⟨b, h1, rfl⟩ := h
    exact hs.congr rfl rfl
  | publishName p q =>
    simp only [call, publishName] at h
    split at h
    · cases h; exact hs
    · rename_i cur _
      simp only [Res.bind_eq_ok] at h
      obtain ⟨b, _, h2⟩ := h
      unfold satisfyPending at h2
      refine foldRes_inv (P := Clocked cfg T) _ ?_
        (s := { s with base := b, waitOut := false, made := s.made ++ [(p, newSeq q cur)] }) (hs.congr rfl rfl) h2
      intro a e b' _ ha h3
      unfold satisfyOne at h3
      simp only [Res.bind_eq_ok, Res.ok.injEq] at h3
      obtain ⟨d, _, s1, h4, rfl⟩ := h3
      exact (sendSyncData_clocked (by omega) ha h4).congr rfl rfl

theorem onSyncData_clocked {cfg : Cfg} {T : Nat} {s s' : Full} {n : Name} {buf : Bytes} {acts : List Call}
    (hs : Clocked cfg T s) (h : onSyncData cfg s n buf acts = .ok s') : Clocked cfg T s' := by
  unfold onSyncData at h
  simp only at h
  split at h
  · cases h; exact hs.congr rfl rfl
  · simp only [Res.bind_eq_ok] at h
    obtain ⟨r, h1, h2⟩ := h
    split at h2
    · cases h2; exact hs.congr rfl rfl
    · simp only [Res.bind_eq_ok] at h2
      obtain ⟨s1, h3, h4⟩ := h2
      have h5 : Clocked cfg T s1 := by
        refine foldRes_inv (P := Clocked cfg T) acts (fun _ _ _ _ hs h => call_clocked hs h) ?_ h3
        exact hs.congr rfl rfl
      exact processWaiting_clocked (s := { s1 with sched := some (s1.now + cfg.jitter s1.draws, .renew), draws := s1.draws + 1, waitOut := false }) (h5.congr rfl rfl) h4

/-- Time passes only when the clock advances, and no erasure is overdue. -/
theorem step_clocked {cfg : Cfg} {T : Nat} {s s' : Full} {op : Op} (hs : Clocked cfg T s)
    (h : step cfg s op = .ok s') : Clocked cfg s'.now s' ∧ s.now ≤ s'.now ∧ ((∀ t, op ≠ .tick t) → s'.now = s.now) := by
  have key : ∀ {x : Full}, Clocked cfg T x → Clocked cfg x.now x ∧ s.now ≤ x.now ∧ ((∀ t, op ≠ .tick t) → x.now = s.now) := by
    intro x hx
    have := hx.now
    have h2 := hs.now
    exact ⟨this ▸ hx, by omega, fun _ => by omega⟩
  cases op with
  | call c => exact key (call_clocked hs h)
  | recvInterest i =>
    simp only [step] at h
    split at h
    · exact key (onSyncInterest_clocked hs h)
    · cases h; exact key hs
  | segment f =>
    simp only [step] at h
    split at h
    · cases h
      split
      · exact key (hs.congr rfl rfl)
      · exact key hs
    · cases h; exact key hs
  | complete buf acts =>
    simp only [step] at h
    split at h
    · split at h
      · exact key (onSyncData_clocked (s := s.stopFetcher) (hs.congr rfl rfl) h)
      · cases h; exact key hs
    · cases h; exact key hs
  | error t =>
    simp only [step] at h
    split at h
    · split at h
      · cases h
        split
        · exact key (hs.congr rfl rfl)
        · exact key (hs.congr rfl rfl)
      · cases h; exact key hs
    · cases h; exact key hs
  | tick t =>
    simp only [step, Res.ok.injEq] at h
    subst h
    split
    · rename_i ht
      simp only [Bool.and_eq_true, decide_eq_true_eq, timersAfter, List.all_eq_true] at ht
      obtain ⟨ht1, _, ht2⟩ := ht
      refine ⟨⟨rfl, fun e he => ?_⟩, ht1, fun hh => absurd rfl (hh t)⟩
      have h1 := hs.timers e he
      have h2 := ht2 e he
      have h3 := hs.now
      simp only
      omega
    · exact key hs
  | fireSync =>
    simp only [step] at h
    split at h
    · split at h
      · split at h
        · exact key (sendSyncInterest_clocked (s := { s with sched := none }) (hs.congr rfl rfl) h)
        · exact key (sendSyncInterest_clocked (s := { s with sched := none, waitOut := false }) (hs.congr rfl rfl) h)
      · cases h; exact key hs
    · cases h; exact key hs
  | fireDelay =>
    simp only [step] at h
    split at h
    · split at h
      · simp only [Res.bind_eq_ok, Res.ok.injEq] at h
        obtain ⟨s1, h1, rfl⟩ := h
        exact key (scheduleProcess_clocked (processWaiting_clocked (s := { s with delayTimer := none }) (hs.congr rfl rfl) h1))
      · cases h; exact key hs
    · cases h; exact key hs
  | expire n =>
    simp only [step] at h
    split at h
    · cases h
      split
      · exact key (hs.congr rfl rfl)
      · exact key hs
    · cases h; exact key hs
  | fireStore =>
    simp only [step, Res.ok.injEq] at h
    subst h
    refine key ⟨hs.now, fun e he => hs.timers e ?_⟩
    simp only [SegPub.fire, List.mem_filter] at he
    exact he.1

theorem init_clocked {cfg : Cfg} {s : Full} (h : init cfg = .ok s) : Clocked cfg s.now s := by
  have : Clocked cfg 0 s := sendSyncInterest_clocked (s := fresh cfg) ⟨rfl, by simp [fresh, SegPub.empty]⟩ h
  rw [this.now]; exact this

theorem run_clocked {cfg : Cfg} {ops : List Op} : ∀ {s s' : Full}, Clocked cfg s.now s → run cfg s ops = .ok s' →
    Clocked cfg s'.now s' ∧ s.now ≤ s'.now := by
  induction ops with
  | nil => intro s s' hs h; simp only [run, foldRes, Res.ok.injEq] at h; subst h; exact ⟨hs, le_refl _⟩
  | cons op ops ih =>
    intro s s' hs h
    simp only [run, foldRes, Res.bind_eq_ok] at h
    obtain ⟨s1, h1, h2⟩ := h
    obtain ⟨h3, h4, _⟩ := step_clocked hs h1
    obtain ⟨h5, h6⟩ := ih h3 h2
    exact ⟨h5, by omega⟩

theorem reach_clocked {cfg : Cfg} {s : Full} (h : Reach cfg s) : Clocked cfg s.now s := by
  obtain ⟨s0, ops, h1, h2⟩ := h
  exact (run_clocked (init_clocked h1) h2).1

end Full

/-! ### Packets and their erasure timers -/

/-- Every stored packet has its erasure scheduled. -/
def Timed (p : SegPub) : Prop := ∀ d ∈ p.store, ∃ e ∈ p.timers, e.2 = d.name

theorem isPrefixOf_self (n : Name) : n.isPrefixOf n = true := by
  rw [List.isPrefixOf_iff_prefix]; exact List.prefix_rfl

theorem Micro.timed {ρ : Rules} {v v' : View} (h : Micro ρ v v') (ht : Timed v.pub) : Timed v'.pub := by
  cases h with
  | data now iname dname buf fr r hd h =>
    intro d hd'
    obtain ⟨p1, p2, _⟩ := publish_ok h
    simp only [p1] at hd'
    simp only [p2]
    rcases storeFold_mem _ hd' with hd' | hd'
    · obtain ⟨e, he, hn⟩ := ht d hd'
      exact ⟨e, List.mem_append_left _ he, hn⟩
    · exact ⟨(now + fr, d.name), List.mem_append_right _ (List.mem_map.mpr ⟨d, hd', rfl⟩), rfl⟩
  | fire t =>
    intro d hd
    obtain ⟨h1, h2⟩ := fire_mem.mp hd
    obtain ⟨e, he, hn⟩ := ht d h1
    refine ⟨e, ?_, hn⟩
    simp only [SegPub.fire, List.mem_filter, decide_eq_true_eq]
    refine ⟨he, fun hle => ?_⟩
    have := h2 e he hle
    rw [hn, isPrefixOf_self] at this
    cases this
  | _ => exact ht

theorem Micros.timed {ρ : Rules} {v v' : View} (h : Micros ρ v v') (ht : Timed v.pub) : Timed v'.pub := by
  induction h with
  | refl => exact ht
  | tail _ h ih => exact h.timed ih

/-- A packet in the store was there before, with an erasure timer, or belongs to a reply made since. -/
theorem Micros.kept {ρ : Rules} {v v' : View} (h : Micros ρ v v') (ht : Timed v.pub) :
    ∀ d ∈ v'.pub.store, (d ∈ v.pub.store ∧ ∃ e ∈ v.pub.timers, e ∈ v'.pub.timers ∧ e.2 = d.name) ∨
      ∃ (k : Nat) (e : Name × Bytes × Nat), v.replies.length ≤ k ∧
      v'.replies[k]? = some e ∧ d ∈ segmentData (e.1.appendVersion (ρ.version k)) e.2.1 e.2.2 := by
  induction h with
  | refl =>
    intro d hd
    obtain ⟨e, he, hn⟩ := ht d hd
    exact Or.inl ⟨hd, e, he, he, hn⟩
  | @tail w v' h1 h ih =>
    have hpre := Micros.replies h1
    cases h with
    | data now iname dname buf fr r hd h =>
      intro d hd'
      obtain ⟨p1, p2, _⟩ := publish_ok h
      simp only [p1] at hd'
      simp only [p2]
      rcases storeFold_mem _ hd' with hd' | hd'
      · rcases ih d hd' with ⟨hd0, e, he1, he2, hn⟩ | ⟨k, e, h1, h2, h3⟩
        · exact Or.inl ⟨hd0, e, he1, List.mem_append_left _ he2, hn⟩
        · refine Or.inr ⟨k, e, h1, ?_, h3⟩
          rw [List.getElem?_append_left (List.getElem?_eq_some_iff.mp h2).1]
          exact h2
      · exact Or.inr ⟨w.replies.length, (dname, buf, fr), hpre.length_le, by simp, hd'⟩
    | fire t =>
      intro d hd
      obtain ⟨h3, h4⟩ := fire_mem.mp hd
      rcases ih d h3 with ⟨hd0, e, he1, he2, hn⟩ | h5
      · refine Or.inl ⟨hd0, e, he1, ?_, hn⟩
        simp only [SegPub.fire, List.mem_filter, decide_eq_true_eq]
        refine ⟨he2, fun hle => ?_⟩
        have := h4 e he2 hle
        rw [hn, isPrefixOf_self] at this
        cases this
      · exact Or.inr h5
    | _ => exact ih

end PSync
