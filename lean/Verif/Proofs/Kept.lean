import Verif.Proofs.Owed
/-!
What happens to a parked Interest before its time is up.
-/
namespace PSync
open Spec

namespace Full

/-- Data named under `k` is sent, or `k` stays parked until `D` at least. -/
def Keeps (k : Name) (D : Nat) (s s' : Full) : Prop :=
  s'.now = s.now ∧ ∃ ext, s'.log = s.log ++ ext ∧ ((∃ d ∈ dataOf ext, k <+: d.name) ∨
    ∀ e, s.pending.find k = some e → D ≤ e.deadline → ∃ e', s'.pending.find k = some e' ∧ D ≤ e'.deadline)

variable {k : Name} {D : Nat} {cfg : Cfg}

theorem Keeps.refl (k : Name) (D : Nat) (s : Full) : Keeps k D s s :=
  ⟨rfl, [], by simp, .inr fun e he hd => ⟨e, he, hd⟩⟩

theorem Keeps.trans {a b c : Full} (h : Keeps k D a b) (h' : Keeps k D b c) : Keeps k D a c := by
  obtain ⟨n1, x, e1, h1⟩ := h
  obtain ⟨n2, y, e2, h2⟩ := h'
  refine ⟨n2.trans n1, x ++ y, by rw [e2, e1, List.append_assoc], ?_⟩
  rcases h1 with ⟨d, hd, hk⟩ | h1
  · exact .inl ⟨d, by rw [dataOf_append]; exact List.mem_append_left _ hd, hk⟩
  rcases h2 with ⟨d, hd, hk⟩ | h2
  · exact .inl ⟨d, by rw [dataOf_append]; exact List.mem_append_right _ hd, hk⟩
  · refine .inr fun e he hD => ?_
    obtain ⟨e', he', hD'⟩ := h1 e he hD
    exact h2 e' he' hD'

theorem Keeps.same {s s' : Full} (hn : s'.now = s.now) (hp : s'.pending = s.pending) (hl : ∃ ext, s'.log = s.log ++ ext) :
    Keeps k D s s' := by
  obtain ⟨ext, hl⟩ := hl
  exact ⟨hn, ext, hl, .inr fun e he hd => ⟨e, by rw [hp]; exact he, hd⟩⟩

theorem Keeps.other {s s' : Full} (hn : s'.now = s.now) (hp : s'.pending.find k = s.pending.find k) (hl : ∃ ext, s'.log = s.log ++ ext) :
    Keeps k D s s' := by
  obtain ⟨ext, hl⟩ := hl
  exact ⟨hn, ext, hl, .inr fun e he hd => ⟨e, by rw [hp]; exact he, hd⟩⟩

theorem sendSyncInterest_parks_on {s s' : Full} (h : sendSyncInterest cfg s = .ok s') : Keeps k D s s' := by
  have hc := sendSyncInterest_core h
  refine .same hc.now hc.pending ?_
  rcases sendSyncInterest_ok h with ⟨_, rfl⟩ | ⟨_, name, _, ⟨_, _, rfl⟩ | ⟨_, rfl⟩⟩
  · exact ⟨[], by simp⟩
  · exact ⟨[], by simp [stopFetcher]⟩
  · exact ⟨_, rfl⟩

theorem sendSyncData_log {s s' : Full} {name : Name} {c : List Name} {fr : Nat}
    (h : sendSyncData cfg s name (encodeNames c) fr = .ok s') : Replied cfg s s' name c fr := by
  obtain ⟨buf, r, is, h2, h3, h4, h5, h6⟩ := sendSyncData_replied h
  exact ⟨buf, r, is, h2, h3, h4, h5, h6⟩

theorem sendSyncData_parks_on {s s' : Full} {name : Name} {c : List Name} {fr : Nat}
    (h : sendSyncData cfg s name (encodeNames c) fr = .ok s') : Keeps k D s s' := by
  have hc := sendSyncData_core h
  obtain ⟨buf, r, is, _, _, _, h4, _⟩ := sendSyncData_log h
  exact .same hc.now hc.pending ⟨_, by rw [h4, List.append_assoc]⟩

theorem sendSyncData_delete {s s' : Full} {name : Name} {c : List Name} {fr : Nat} (hk : k ≠ []) (hty : (k.getLast hk).type ≠ 50)
    (h : sendSyncData cfg s name (encodeNames c) fr = .ok s') : Keeps k D s (s'.deletePending name) := by
  by_cases hn : name = k
  · subst hn
    have hc := sendSyncData_core h
    obtain ⟨buf, r, is, _, h2, _, h4, _⟩ := sendSyncData_log h
    have h2' := h2
    rw [← List.dropLast_append_getLast hk] at h2'
    obtain ⟨d, _, hd⟩ := publish_first hty h2'
    refine ⟨hc.now, r.2.map Out.data ++ is, by rw [deletePending, h4, List.append_assoc], .inl ⟨d, ?_, ?_⟩⟩
    · rw [dataOf_append, dataOf_map, hd]; simp
    · obtain ⟨j, hj⟩ := List.mem_iff_getElem?.1 (publish_data_mem h2 (d := d) (by rw [hd]; simp))
      rw [(segmentData_spec _ _ _).name j d hj, Name.appendVersion, List.append_assoc]
      exact List.prefix_append _ _
  · refine (sendSyncData_parks_on h).trans (.other rfl ?_ ⟨[], by simp [deletePending]⟩)
    rw [deletePending, NMap.find_erase, if_neg hn]

theorem mark_parks_on (s : Full) (n : Name) : Keeps k D s (s.markWaiting n) := by
  unfold markWaiting
  split
  · exact .same rfl rfl ⟨[], by simp⟩
  · exact .refl _ _ _

theorem scheduleProcess_same (cfg : Cfg) (s : Full) : (scheduleProcess cfg s).now = s.now ∧ (scheduleProcess cfg s).pending = s.pending ∧
    (scheduleProcess cfg s).log = s.log := by
  unfold scheduleProcess
  split
  · exact ⟨rfl, rfl, rfl⟩
  · split <;> exact ⟨rfl, rfl, rfl⟩

theorem waitOrGiveUp_parks_on (s : Full) (i : Interest) (t : Bool) : Keeps k D s (waitOrGiveUp cfg s i t).1 := by
  unfold waitOrGiveUp
  split
  · split
    · obtain ⟨h1, h2, h3⟩ := scheduleProcess_same cfg { s with waiting := s.waiting.set i.name ⟨0, i.nonce⟩ }
      exact .same h1 h2 ⟨[], by rw [h3]; simp⟩
    · exact .refl _ _ _
  · split
    · split
      · exact mark_parks_on _ _
      · exact .refl _ _ _
    · exact .refl _ _ _

theorem onUndecodable_parks_on (hk : k ≠ []) (hty : (k.getLast hk).type ≠ 50) {s s' : Full} {i : Interest} {t : Bool} {n : Nat}
    {d : IBLTDiff} (h : onUndecodable cfg s i t n d = .ok s') : Keeps k D s s' := by
  unfold onUndecodable at h
  split at h
  · have h1 := waitOrGiveUp_parks_on (k := k) (D := D) (cfg := cfg) s i t
    split at h
    · rename_i s1 hw
      rw [hw] at h1
      exact h1.trans (sendSyncInterest_parks_on h)
    · rename_i s1 hw
      rw [hw] at h1
      cases h
      exact h1
  · split at h
    · cases h; exact .refl _ _ _
    · simp only at h
      split at h
      · cases h; exact mark_parks_on _ _
      · simp only [Res.bind_eq_ok, Res.ok.injEq] at h
        obtain ⟨s1, h1, rfl⟩ := h
        exact (sendSyncData_delete hk hty h1).trans (mark_parks_on _ _)

theorem onDecoded_parks_on {s s' : Full} {i : Interest} {t : Bool} {ib : Table} {d : IBLTDiff}
    (hD : i.name = k → D ≤ s.now + i.lifetime) (h : onDecoded cfg s i t ib d = .ok s') : Keeps k D s s' := by
  unfold onDecoded at h
  split at h
  · simp only [Res.ok.injEq] at h
    subst h
    have hp : Keeps k D s { s with pending := s.pending.set i.name ⟨((s.pending.find i.name).getD ⟨ib, 0⟩).iblt, s.now + i.lifetime⟩ } := by
      refine ⟨rfl, [], by simp, .inr fun e he hd => ?_⟩
      simp only [NMap.find_set]
      split
      · rename_i hn
        exact ⟨_, rfl, hD hn⟩
      · exact ⟨e, he, hd⟩
    split
    · exact hp.trans (mark_parks_on _ _)
    · exact hp
  · split at h
    · simp only [Res.ok.injEq] at h
      subst h
      exact waitOrGiveUp_parks_on _ _ _
    · generalize collect d.negative s.base d.positive [] = x at h
      obtain ⟨content, b⟩ := x
      simp only at h
      have h0 : Keeps k D s { s with base := b } := .same rfl rfl ⟨[], by simp⟩
      split at h
      · cases h; exact h0
      · simp only [Res.bind_eq_ok, Res.ok.injEq] at h
        obtain ⟨s1, h2, rfl⟩ := h
        exact h0.trans ((sendSyncData_parks_on h2).trans (mark_parks_on _ _))

theorem onSyncInterest_parks_on (hk : k ≠ []) (hty : (k.getLast hk).type ≠ 50) {s s' : Full} {i : Interest} {t : Bool}
    (hD : i.name = k → D ≤ s.now + i.lifetime) (h : onSyncInterest cfg s i t = .ok s') : Keeps k D s s' := by
  rcases onSyncInterest_cases h with ⟨d, _, rfl⟩ | ⟨_, ⟨d, _, _, rfl⟩ | rfl | ⟨c2, c1, num, ib, df, _, _, _, _, _, _, h1⟩⟩
  · exact .same rfl rfl ⟨_, rfl⟩
  · exact .same rfl rfl ⟨_, rfl⟩
  · exact .refl _ _ _
  · rcases h1 with ⟨_, h1⟩ | ⟨_, h1⟩
    · exact onUndecodable_parks_on hk hty h1
    · exact onDecoded_parks_on hD h1

theorem processOne_parks_on (hk : k ≠ []) (hty : (k.getLast hk).type ≠ 50) {s s' : Full} {n : Name} (hD : D ≤ s.now + defaultLifetime)
    (h : processOne cfg s n = .ok s') : Keeps k D s s' := by
  unfold processOne at h
  split at h
  · cases h; exact .refl _ _ _
  · rename_i w hw
    split at h
    · cases h; exact .same rfl rfl ⟨[], by simp⟩
    · simp only [Res.bind_eq_ok] at h
      obtain ⟨s1, h1, h2⟩ := h
      have h0 : Keeps k D s { s with waiting := s.waiting.set n { w with numTries := w.numTries + 1 } } := .same rfl rfl ⟨[], by simp⟩
      have h3 := h0.trans (onSyncInterest_parks_on hk hty (fun _ => hD) h1)
      split at h2
      · cases h2; exact h3
      · split at h2
        · cases h2; exact h3.trans (.same rfl rfl ⟨[], by simp⟩)
        · cases h2; exact h3

theorem processWaiting_parks_on (hk : k ≠ []) (hty : (k.getLast hk).type ≠ 50) {s s' : Full} (hD : D ≤ s.now + defaultLifetime)
    (h : processWaiting cfg s = .ok s') : Keeps k D s s' := by
  unfold processWaiting at h
  have : ∀ (l : List Name) (a : Full), D ≤ a.now + defaultLifetime → foldRes (processOne cfg) a l = .ok s' → Keeps k D a s' := by
    intro l
    induction l with
    | nil => intro a _ h; simp only [foldRes, Res.ok.injEq] at h; subst h; exact .refl _ _ _
    | cons n l ih =>
      intro a ha h
      simp only [foldRes, Res.bind_eq_ok] at h
      obtain ⟨b, h1, h2⟩ := h
      have h3 := processOne_parks_on (k := k) hk hty ha h1
      exact h3.trans (ih b (by rw [h3.1]; exact ha) h2)
  exact this _ _ hD h

theorem call_parks_on (hk : k ≠ []) (hty : (k.getLast hk).type ≠ 50) {s s' : Full} {c : Call} (h : call cfg s c = .ok s') : Keeps k D s s' := by
  cases c with
  | addUserNode p =>
    simp only [call, Res.ok.injEq] at h
    subst h
    exact .same rfl rfl ⟨[], by simp⟩
  | removeUserNode p =>
    simp only [call, Res.bind_eq_ok, Res.ok.injEq] at h
    obtain ⟨b, _, rfl⟩ := h
    exact .same rfl rfl ⟨[], by simp⟩
  | publishName p seq =>
    simp only [call, publishName] at h
    split at h
    · cases h; exact .refl _ _ _
    · simp only [Res.bind_eq_ok] at h
      obtain ⟨b, _, h2⟩ := h
      unfold satisfyPending at h2
      have h3 := foldRes_rel (Q := Keeps k D) (Keeps.refl k D) (fun _ _ _ => Keeps.trans) _ (by
        intro a e b' _ h3
        unfold satisfyOne at h3
        simp only [Res.bind_eq_ok, Res.ok.injEq] at h3
        obtain ⟨df, _, s1, h4, rfl⟩ := h3
        exact sendSyncData_delete hk hty h4) h2
      refine Keeps.trans ?_ h3
      exact .same rfl rfl ⟨[], by simp⟩

/-- One event: unless the clock runs, the node's own fetch for `k` completes, `k` is received again, or `k`'s time is up. -/
theorem step_parks_on (hk : k ≠ []) (hty : (k.getLast hk).type ≠ 50) {s s' : Full} {op : Op} (hD : D ≤ s.now + defaultLifetime) (hD' : s.now < D)
    (hrecv : ∀ i, op = .recvInterest i → i.name ≠ k)
    (hown : ∀ buf acts, op = .complete buf acts → ∀ f, s.fetcher = some f → f.active = true → f.name ≠ k)
    (h : step cfg s op = .ok s') :
    (∃ t, op = .tick t) ∨ Keeps k D s s' := by
  cases op with
  | call c => exact .inr (call_parks_on hk hty h)
  | recvInterest i =>
    right
    simp only [step] at h
    split at h
    · exact onSyncInterest_parks_on hk hty (fun e => absurd e (hrecv i rfl)) h
    · cases h; exact .refl _ _ _
  | segment face =>
    right
    simp only [step] at h
    split at h
    · simp only [Res.ok.injEq] at h; subst h
      split
      · exact .same rfl rfl ⟨[], by simp⟩
      · exact .refl _ _ _
    · cases h; exact .refl _ _ _
  | complete buf acts =>
    right
    simp only [step] at h
    split at h
    · rename_i f hf
      split at h
      · rename_i ha
        have hne := hown buf acts rfl f hf ha
        unfold onSyncData at h
        have h0 : Keeps k D s (s.stopFetcher.deletePending f.name) := by
          refine .other rfl ?_ ⟨[], by simp [deletePending, stopFetcher]⟩
          simp only [deletePending, stopFetcher]
          rw [NMap.find_erase, if_neg hne]
        split at h
        · cases h; exact h0
        · simp only [Res.bind_eq_ok] at h
          obtain ⟨r, _, h⟩ := h
          split at h
          · cases h
            exact h0.trans (.same rfl rfl ⟨[], by simp⟩)
          · simp only [Res.bind_eq_ok] at h
            obtain ⟨s2, h1, h2⟩ := h
            have h3 := foldRes_rel (Q := Keeps k D) (Keeps.refl k D) (fun _ _ _ => Keeps.trans) _ (fun _ _ _ _ => call_parks_on hk hty) h1
            have h4 : Keeps k D s s2 := by
              refine h0.trans (Keeps.trans ?_ h3)
              exact .same rfl rfl ⟨_, rfl⟩
            have h5 : Keeps k D s2 { s2 with sched := some (s2.now + cfg.jitter s2.draws, .renew), draws := s2.draws + 1, waitOut := false } :=
              .same rfl rfl ⟨[], by simp⟩
            exact h4.trans (h5.trans (processWaiting_parks_on hk hty (by show D ≤ s2.now + _; rw [h4.1]; exact hD) h2))
      · cases h; exact .refl _ _ _
    · cases h; exact .refl _ _ _
  | error t =>
    right
    simp only [step] at h
    split at h
    · split at h
      · simp only [Res.ok.injEq] at h; subst h
        split <;> exact .same rfl rfl ⟨[], by simp [stopFetcher]⟩
      · cases h; exact .refl _ _ _
    · cases h; exact .refl _ _ _
  | tick t => exact .inl ⟨t, rfl⟩
  | fireSync =>
    right
    simp only [step] at h
    split at h
    · split at h
      · have h0 : Keeps k D s { s with sched := none } := .same rfl rfl ⟨[], by simp⟩
        split at h
        · exact h0.trans (sendSyncInterest_parks_on h)
        · have h1 : Keeps k D s { s with sched := none, waitOut := false } := .same rfl rfl ⟨[], by simp⟩
          exact h1.trans (sendSyncInterest_parks_on h)
      · cases h; exact .refl _ _ _
    · cases h; exact .refl _ _ _
  | fireDelay =>
    right
    simp only [step] at h
    split at h
    · split at h
      · simp only [Res.bind_eq_ok, Res.ok.injEq] at h
        obtain ⟨s1, h1, rfl⟩ := h
        have h0 : Keeps k D s { s with delayTimer := none } := .same rfl rfl ⟨[], by simp⟩
        obtain ⟨e1, e2, e3⟩ := scheduleProcess_same cfg s1
        have h2 := processWaiting_parks_on (k := k) (D := D) hk hty (by exact hD) h1
        exact h0.trans (h2.trans (.same e1 e2 ⟨[], by rw [e3]; simp⟩))
      · cases h; exact .refl _ _ _
    · cases h; exact .refl _ _ _
  | expire n =>
    right
    simp only [step] at h
    split at h
    · rename_i e he
      simp only [Res.ok.injEq] at h
      subst h
      refine ⟨by split <;> rfl, [], by split <;> simp [deletePending], .inr fun e' he' hd => ?_⟩
      split
      · rename_i hle
        simp only [deletePending, NMap.find_erase]
        by_cases hn : n = k
        · subst hn
          rw [he] at he'
          cases he'
          omega
        · rw [if_neg hn]; exact ⟨e', he', hd⟩
      · exact ⟨e', he', hd⟩
    · cases h; exact .refl _ _ _
  | fireStore =>
    right
    simp only [step, Res.ok.injEq] at h
    subst h
    exact .same rfl rfl ⟨[], by simp⟩

end Full
end PSync
