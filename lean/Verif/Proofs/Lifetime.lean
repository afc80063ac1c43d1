import Verif.Model.Lifetime
import Verif.Proofs.Merge
import Verif.Proofs.Consumer
/-!
No fetcher is left running when the pointer to it changes.
-/
namespace PSync
namespace Full

theorem orphans_send {cfg : Cfg} {s s' : Full} (h : sendSyncInterest cfg s = .ok s') : s'.orphans = s.orphans := by
  rcases sendSyncInterest_ok h with ⟨_, rfl⟩ | ⟨_, name, _, ⟨_, _, rfl⟩ | ⟨_, rfl⟩⟩ <;> rfl

theorem orphans_publish {cfg : Cfg} {s s' : Full} {n : Name} {b : Bytes} {f : Nat} (h : publish cfg s n b f = .ok s') :
    s'.orphans = s.orphans := by
  unfold publish at h
  simp only [Res.bind_eq_ok, Res.ok.injEq] at h
  obtain ⟨r, _, rfl⟩ := h
  rfl

theorem orphans_data {cfg : Cfg} {s s' : Full} {n : Name} {b : Bytes} {f : Nat} (h : sendSyncData cfg s n b f = .ok s') :
    s'.orphans = s.orphans := by
  unfold sendSyncData at h
  simp only [Res.bind_eq_ok] at h
  obtain ⟨buf, _, s1, h1, h2⟩ := h
  have e1 := orphans_publish h1
  have e2 : s'.orphans = s1.orphans := by
    split at h2
    · exact orphans_send h2
    · cases h2; rfl
  rw [e2, e1]
  split <;> rfl

theorem orphans_mark (s : Full) (n : Name) : (s.markWaiting n).orphans = s.orphans := by
  unfold markWaiting
  split <;> rfl

theorem orphans_schedule (cfg : Cfg) (s : Full) : (s.scheduleProcess cfg).orphans = s.orphans := by
  unfold scheduleProcess
  split
  · rfl
  · split <;> rfl

theorem orphans_wait (cfg : Cfg) (s : Full) (i : Interest) (t : Bool) : (waitOrGiveUp cfg s i t).1.orphans = s.orphans := by
  unfold waitOrGiveUp
  split
  · split
    · exact orphans_schedule _ _
    · rfl
  · split
    · split
      · exact orphans_mark _ _
      · rfl
    · rfl

theorem orphans_undecodable {cfg : Cfg} {s s' : Full} {i : Interest} {t : Bool} {n : Nat} {d : IBLTDiff}
    (h : onUndecodable cfg s i t n d = .ok s') : s'.orphans = s.orphans := by
  unfold onUndecodable at h
  split at h
  · have hw := orphans_wait cfg s i t
    split at h
    · rename_i s1 he
      rw [he] at hw
      exact (orphans_send h).trans hw
    · rename_i s1 he
      rw [he] at hw
      cases h
      exact hw
  · split at h
    · cases h; rfl
    · simp only at h
      split at h
      · cases h; exact orphans_mark _ _
      · simp only [Res.bind_eq_ok, Res.ok.injEq] at h
        obtain ⟨s1, h1, rfl⟩ := h
        have e := orphans_data h1
        rw [orphans_mark]
        exact e

theorem orphans_decoded {cfg : Cfg} {s s' : Full} {i : Interest} {t : Bool} {ib : Table} {d : IBLTDiff}
    (h : onDecoded cfg s i t ib d = .ok s') : s'.orphans = s.orphans := by
  unfold onDecoded at h
  split at h
  · cases h
    split
    · exact orphans_mark _ _
    · rfl
  · split at h
    · cases h; exact orphans_wait _ _ _ _
    · simp only at h
      split at h
      · cases h; rfl
      · simp only [Res.bind_eq_ok, Res.ok.injEq] at h
        obtain ⟨s1, h1, rfl⟩ := h
        have e := orphans_data h1
        rw [orphans_mark]
        exact e

theorem orphans_interest {cfg : Cfg} {s s' : Full} {i : Interest} {t : Bool} (h : onSyncInterest cfg s i t = .ok s') :
    s'.orphans = s.orphans := by
  unfold onSyncInterest at h
  split at h
  · cases h; rfl
  · simp only at h
    split at h
    · simp only [Res.bind_eq_ok, Res.ok.injEq] at h
      obtain ⟨d, _, rfl⟩ := h
      rfl
    · split at h
      · cases h; rfl
      · simp only [Res.bind_eq_ok] at h
        obtain ⟨a, _, b, _, n, _, h⟩ := h
        split at h
        · cases h; rfl
        · cases h
        · cases h
        · simp only [Res.bind_eq_ok] at h
          obtain ⟨d, _, h⟩ := h
          split at h
          · exact orphans_undecodable h
          · exact orphans_decoded h

theorem orphans_one {cfg : Cfg} {s s' : Full} {n : Name} (h : processOne cfg s n = .ok s') : s'.orphans = s.orphans := by
  unfold processOne at h
  split at h
  · cases h; rfl
  · split at h
    · cases h; rfl
    · simp only [Res.bind_eq_ok] at h
      obtain ⟨s1, h1, h⟩ := h
      have e := orphans_interest h1
      split at h
      · cases h; exact e
      · split at h <;> cases h <;> exact e

theorem orphans_fold {β : Type} {f : Full → β → Res Full} (hf : ∀ a x b, f a x = .ok b → b.orphans = a.orphans) (l : List β)
    {s s' : Full} (h : foldRes f s l = .ok s') : s'.orphans = s.orphans :=
  foldRes_rel (Q := fun a b : Full => b.orphans = a.orphans) (fun _ => rfl) (fun _ _ _ h1 h2 => h2.trans h1) l
    (fun _ _ _ _ h => hf _ _ _ h) h

theorem orphans_call {cfg : Cfg} {s s' : Full} {c : Call} (h : call cfg s c = .ok s') : s'.orphans = s.orphans := by
  cases c with
  | addUserNode p => simp only [call, Res.ok.injEq] at h; subst h; rfl
  | removeUserNode p =>
    simp only [call, Res.bind_eq_ok, Res.ok.injEq] at h
    obtain ⟨b, _, rfl⟩ := h
    rfl
  | publishName p q =>
    simp only [call] at h
    unfold publishName at h
    split at h
    · cases h; rfl
    · simp only [Res.bind_eq_ok] at h
      obtain ⟨b, _, h⟩ := h
      have := orphans_fold (fun _ _ _ h => by
        unfold satisfyOne at h
        simp only [Res.bind_eq_ok, Res.ok.injEq] at h
        obtain ⟨d, _, s1, h1, rfl⟩ := h
        have e := orphans_data h1
        exact e) _ h
      exact this

theorem orphans_step {cfg : Cfg} {s s' : Full} {op : Op} (h : step cfg s op = .ok s') : s'.orphans = s.orphans := by
  cases op with
  | call c => exact orphans_call h
  | recvInterest i =>
    simp only [step] at h
    split at h
    · exact orphans_interest h
    · cases h; rfl
  | segment f =>
    simp only [step] at h
    split at h
    · cases h
      split <;> rfl
    · cases h; rfl
  | complete buf acts =>
    simp only [step] at h
    split at h
    · split at h
      · unfold onSyncData at h
        simp only at h
        split at h
        · cases h; rfl
        · simp only [Res.bind_eq_ok] at h
          obtain ⟨r, _, h⟩ := h
          split at h
          · cases h; rfl
          · simp only [Res.bind_eq_ok] at h
            obtain ⟨s1, h1, h2⟩ := h
            have e1 := orphans_fold (fun _ _ _ h => orphans_call h) _ h1
            have e2 := orphans_fold (fun _ _ _ h => orphans_one h) _ h2
            exact e2.trans e1
      · cases h; rfl
    · cases h; rfl
  | error t =>
    simp only [step] at h
    split at h
    · split at h
      · cases h
        split <;> rfl
      · cases h; rfl
    · cases h; rfl
  | tick t => simp only [step, Res.ok.injEq] at h; subst h; split <;> rfl
  | fireSync =>
    simp only [step] at h
    split at h
    · split at h
      · split at h <;> (have e := orphans_send h; exact e)
      · cases h; rfl
    · cases h; rfl
  | fireDelay =>
    simp only [step] at h
    split at h
    · split at h
      · simp only [Res.bind_eq_ok, Res.ok.injEq] at h
        obtain ⟨s1, h1, rfl⟩ := h
        rw [orphans_schedule]
        have := orphans_fold (fun _ _ _ h => orphans_one h) _ h1
        exact this
      · cases h; rfl
    · cases h; rfl
  | expire n =>
    simp only [step] at h
    split at h
    · cases h
      split <;> rfl
    · cases h; rfl
  | fireStore => simp only [step, Res.ok.injEq] at h; subst h; rfl

theorem orphans_reach {cfg : Cfg} {s : Full} (h : Reach cfg s) : s.orphans = [] := by
  obtain ⟨s0, ops, h0, h1⟩ := h
  rw [orphans_fold (fun _ _ _ h => orphans_step h) ops h1]
  exact orphans_send h0

end Full

namespace Cons

theorem orphans_sync {cfg : CCfg} {s s' : Cons} (h : s.sendSyncInterest cfg = .ok s') : s'.orphans = s.orphans := by
  obtain ⟨_, cs, _, rfl⟩ := sendSyncInterest_ok h
  rfl

theorem orphans_hello (cfg : CCfg) (s : Cons) : (s.sendHelloInterest cfg).orphans = s.orphans := by
  simp [sendHelloInterest]

theorem orphans_call {cfg : CCfg} {s s' : Cons} {c : Call} (h : call cfg s c = .ok s') : s'.orphans = s.orphans := by
  cases c with
  | addSubscription p q cb =>
    simp only [call, Res.bind_eq_ok, Res.ok.injEq] at h
    obtain ⟨r, hr, rfl⟩ := h
    unfold addSubscription at hr
    split at hr
    · cases hr; rfl
    · simp only [Res.bind_eq_ok, Res.ok.injEq] at hr
      obtain ⟨bf, _, rfl⟩ := hr
      simp only
      split <;> rfl
  | removeSubscription p =>
    simp only [call, Res.bind_eq_ok, Res.ok.injEq] at h
    obtain ⟨r, hr, rfl⟩ := h
    unfold removeSubscription at hr
    split at hr
    · cases hr; rfl
    · simp only [Res.bind_eq_ok, Res.ok.injEq] at hr
      obtain ⟨bf, _, rfl⟩ := hr
      rfl
  | sendHello => simp only [call, Res.ok.injEq] at h; subst h; exact orphans_hello _ _
  | sendSync => exact orphans_sync h
  | stop => simp only [call, Res.ok.injEq] at h; subst h; simp [stop]

theorem orphans_fold {β : Type} {f : Cons → β → Res Cons} (hf : ∀ a x b, f a x = .ok b → b.orphans = a.orphans) (l : List β)
    {s s' : Cons} (h : foldRes f s l = .ok s') : s'.orphans = s.orphans :=
  foldRes_rel (Q := fun a b : Cons => b.orphans = a.orphans) (fun _ => rfl) (fun _ _ _ h1 h2 => h2.trans h1) l
    (fun _ _ _ _ h => hf _ _ _ h) h

theorem orphans_step {cfg : CCfg} {s s' : Cons} {op : Op} (h : step cfg s op = .ok s') : s'.orphans = s.orphans := by
  cases op with
  | call c => exact orphans_call h
  | helloSegment d =>
    simp only [step] at h
    split at h
    · cases h
      split <;> rfl
    · cases h; rfl
  | helloComplete buf a1 a2 =>
    simp only [step] at h
    split at h
    · unfold onHelloData at h
      simp only [Res.bind_eq_ok] at h
      obtain ⟨st, _, r, _, s1, h1, h2⟩ := h
      have e1 := orphans_fold (fun _ _ _ h => orphans_call h) _ h1
      split at h2
      · cases h2; exact e1
      · have e2 := orphans_fold (fun _ _ _ h => orphans_call h) _ h2
        exact e2.trans e1
    · cases h; rfl
  | helloError =>
    simp only [step] at h
    split at h <;> cases h <;> rfl
  | syncSegment d =>
    simp only [step] at h
    split at h
    · rw [Res.ok.injEq] at h
      subst h
      split <;> split <;> first | rfl | (rw [orphans_hello])
    · cases h; rfl
  | syncComplete buf acts =>
    simp only [step] at h
    split at h
    · split at h
      · cases h; rfl
      · unfold onSyncData at h
        simp only [Res.bind_eq_ok] at h
        obtain ⟨st, _, r, _, s1, h1, h2⟩ := h
        have e2 := orphans_sync h2
        split at h1
        · cases h1; exact e2
        · have e1 := orphans_fold (fun _ _ _ h => orphans_call h) _ h1
          exact e2.trans e1
    · cases h; rfl
  | syncError t =>
    simp only [step] at h
    split at h
    · split at h
      · have e := orphans_sync h
        exact e
      · cases h; rfl
    · cases h; rfl
  | tick t => simp only [step, Res.ok.injEq] at h; subst h; split <;> rfl
  | fire =>
    simp only [step] at h
    split at h
    · cases h; rfl
    · cases h; rw [orphans_hello]
    · have e := orphans_sync h
      exact e

theorem orphans_reach {cfg : CCfg} {s : Cons} (h : Reach cfg s) : s.orphans = 0 := by
  obtain ⟨s0, ops, h0, h1⟩ := h
  rw [orphans_fold (fun _ _ _ h => orphans_step h) ops h1]
  unfold init at h0
  simp only [Res.bind_eq_ok, Res.ok.injEq] at h0
  obtain ⟨bf, _, rfl⟩ := h0
  rfl

end Cons

theorem Left.run_ok {l : Left} : ∀ {es : List FaceEvent}, (∀ e ∈ es, l.event e = .ok ()) → l.run es = .ok ()
  | [], _ => rfl
  | e :: es, h => by
    unfold Left.run
    simp only [foldRes]
    rw [h e (by simp), Res.ok_bind]
    exact Left.run_ok (l := l) (es := es) (fun x hx => h x (by simp [hx]))

theorem Left.run_ub {l : Left} {es : List FaceEvent} {u : UB} (h : l.run es = .ub u) : ∃ e ∈ es, l.event e = .ub .useAfterFree := by
  by_contra hno
  have : l.run es = .ok () := Left.run_ok fun e he => by
    cases e with
    | fetcher k =>
      by_cases hk : k < l.fetchers
      · exact absurd ⟨_, he, by simp [Left.event, hk]⟩ hno
      · simp [Left.event, hk]
    | interest i =>
      by_cases hk : l.filters.any (fun p => p.isPrefixOf i.name) = true
      · exact absurd ⟨_, he, by simp only [Left.event, hk, if_true]⟩ hno
      · simp only [Left.event, hk]
        rfl
  rw [this] at h
  cases h

theorem Left.event_cases (l : Left) (e : FaceEvent) : l.event e = .ok () ∨ l.event e = .ub .useAfterFree := by
  cases e with
  | fetcher k => simp only [Left.event]; split <;> simp
  | interest i => simp only [Left.event]; split <;> simp

theorem Left.run_of_mem {l : Left} {e : FaceEvent} (he : l.event e = .ub .useAfterFree) :
    ∀ {es : List FaceEvent}, e ∈ es → l.run es = .ub .useAfterFree
  | [], h => by cases h
  | x :: es, h => by
    unfold Left.run
    simp only [foldRes]
    rcases Left.event_cases l x with hx | hx
    · rw [hx, Res.ok_bind]
      rcases List.mem_cons.mp h with rfl | h
      · rw [hx] at he; cases he
      · exact Left.run_of_mem he h
    · rw [hx, Res.ub_bind]

end PSync
