import Verif.Proofs.StoreTime
import Verif.Proofs.PartMicro
/-!
How old a reply from the segment store can be: every stored packet keeps the erasure timer it got when the
reply was made.
-/
namespace PSync
open Spec

/-- A packet in the store was there before and all its erasure timers are still running, or it belongs to a reply made
since. -/
theorem Micros.kept_all {ρ : Rules} {v v' : View} (h : Micros ρ v v') :
    ∀ d ∈ v'.pub.store, (d ∈ v.pub.store ∧ ∀ e ∈ v.pub.timers, e.2 = d.name → e ∈ v'.pub.timers) ∨
      Sent ρ v.base v'.base d := by
  induction h with
  | refl => exact fun d hd => Or.inl ⟨hd, fun e he _ => he⟩
  | @tail w v' h1 h ih =>
    have hst := h.steps
    have old : ∀ d, (d ∈ v.pub.store ∧ ∀ e ∈ v.pub.timers, e.2 = d.name → e ∈ w.pub.timers) ∨ Sent ρ v.base w.base d →
        w.pub = v'.pub → (d ∈ v.pub.store ∧ ∀ e ∈ v.pub.timers, e.2 = d.name → e ∈ v'.pub.timers) ∨ Sent ρ v.base v'.base d := by
      rintro d (hd | hd) he
      · exact Or.inl (he ▸ hd)
      · exact Or.inr (hd.later hst)
    cases h with
    | data now iname dname buf fr r hd h =>
      intro d hd'
      obtain ⟨p1, p2, _⟩ := publish_ok h
      simp only [p1] at hd'
      simp only [p2]
      rcases storeFold_mem _ hd' with hd' | hd'
      · rcases ih d hd' with ⟨hd0, hk⟩ | hs
        · exact Or.inl ⟨hd0, fun e he hn => List.mem_append_left _ (hk e he hn)⟩
        · exact Or.inr hs
      · exact Or.inr ⟨w.base, w.made, dname, _, buf, fr, ⟨Micros.steps h1, Base.Steps.refl⟩, hd, hd'⟩
    | fire t =>
      intro d hd
      obtain ⟨h3, h4⟩ := fire_mem.mp hd
      rcases ih d h3 with ⟨hd0, hk⟩ | hs
      · refine Or.inl ⟨hd0, fun e he hn => ?_⟩
        have he2 := hk e he hn
        simp only [SegPub.fire, List.mem_filter, decide_eq_true_eq]
        refine ⟨he2, fun hle => ?_⟩
        have := h4 e he2 hle
        rw [hn, isPrefixOf_self] at this
        cases this
      · exact Or.inr hs
    | tick t => exact fun d hd => old d (ih d hd) rfl
    | add p => exact fun d hd => old d (ih d hd) rfl
    | remove p b' hp h => exact fun d hd => old d (ih d hd) rfl
    | publish p q b' hp hq hreg h => exact fun d hd => old d (ih d hd) rfl
    | merge us b' hm hu h => exact fun d hd => old d (ih d hd) rfl
    | interest n lt h => exact fun d hd => old d (ih d hd) rfl
    | stored n d h => exact fun d hd => old d (ih d hd) rfl
    | nack d h => exact fun d hd => old d (ih d hd) rfl

/-! ### Full sync -/
namespace Full

/-- The names a reply made on the event may contain: on API calls and on received replies (whose callback may publish)
also the number being published. -/
def opNames : Op → Base → List (Name × Nat) → Name → Prop
  | .call _ => knownP
  | .complete _ _ => knownP
  | _ => liveP

def sharpRules (cfg : Cfg) (op : Op) : Rules :=
  rules cfg (opNames op) (fun p => op.Removes p) (fun p q => op.PublishesAs p q) (fun _ => True)

theorem step_sharp {cfg : Cfg} {s s' : Full} (hs : s.base.Inv) {op : Op} (h : step cfg s op = .ok s') :
    Micros (sharpRules cfg op) s.view s'.view := by
  cases op with
  | call c =>
    exact (step_micro hs h).mono (rules_le (fun _ _ _ h => h) (fun _ h => h) (fun _ _ h => h) (fun _ _ => trivial))
  | complete buf acts =>
    exact (step_micro hs h).mono (rules_le (fun _ _ _ h => h) (fun _ h => h) (fun _ _ h => h) (fun _ _ => trivial))
  | recvInterest i =>
    simp only [step] at h
    split at h
    · exact (onSyncInterest_micro hs h).mono
        (rules_le (fun _ _ _ h => h) (fun _ h => h) (fun _ _ h => h) (fun _ => False.elim))
    · cases h; exact Micros.refl
  | segment f =>
    simp only [step] at h
    split at h
    · cases h; split <;> exact Micros.refl
    · cases h; exact Micros.refl
  | error t =>
    simp only [step] at h
    split at h
    · split at h
      · cases h; split <;> exact Micros.refl
      · cases h; exact Micros.refl
    · cases h; exact Micros.refl
  | tick t =>
    simp only [step, Res.ok.injEq] at h
    subst h
    split
    · rename_i hc
      simp only [Bool.and_eq_true, decide_eq_true_eq] at hc
      exact Micros.one (.tick t hc.1)
    · exact Micros.refl
  | fireSync =>
    simp only [step] at h
    split at h
    · split at h
      · split at h
        · exact sendSyncInterest_micro (ρ := sharpRules cfg .fireSync) (s := { s with sched := none }) (fun b n hn => ⟨hn, rfl⟩) h
        · exact sendSyncInterest_micro (ρ := sharpRules cfg .fireSync) (s := { s with sched := none, waitOut := false }) (fun b n hn => ⟨hn, rfl⟩) h
      · cases h; exact Micros.refl
    · cases h; exact Micros.refl
  | fireDelay =>
    simp only [step] at h
    split at h
    · split at h
      · simp only [Res.bind_eq_ok, Res.ok.injEq] at h
        obtain ⟨s1, h1, rfl⟩ := h
        rw [scheduleProcess_view]
        exact (processWaiting_micro (s := { s with delayTimer := none }) hs h1).mono
          (rules_le (fun _ _ _ h => h) (fun _ h => h) (fun _ _ h => h) (fun _ => False.elim))
      · cases h; exact Micros.refl
    · cases h; exact Micros.refl
  | expire n =>
    simp only [step] at h
    split at h
    · cases h; split <;> exact Micros.refl
    · cases h; exact Micros.refl
  | fireStore =>
    simp only [step, Res.ok.injEq] at h
    subst h
    exact Micros.one (.fire s.now rfl)

/-- `d` belongs to a reply made on the event `op`, on which the node went from `s0` to `s1`; since then the events
`ops` happened and the node is in `s`. -/
def MadeOn (cfg : Cfg) (d : Data) (s0 : Full) (op : Op) (s1 : Full) (s : Full) : Prop :=
  Reach cfg s0 ∧ step cfg s0 op = .ok s1 ∧ Sent (sharpRules cfg op) s0.base s1.base d ∧ ∃ ops, run cfg s1 ops = .ok s

theorem MadeOn.later {cfg : Cfg} {d : Data} {s0 s1 s s' : Full} {op op' : Op} (h : MadeOn cfg d s0 op s1 s)
    (h' : step cfg s op' = .ok s') : MadeOn cfg d s0 op s1 s' := by
  obtain ⟨h1, h2, h3, ops, h4⟩ := h
  refine ⟨h1, h2, h3, ops ++ [op'], ?_⟩
  unfold run at h4 ⊢
  rw [foldRes_append, h4, Res.ok_bind]
  simp only [foldRes, h', Res.ok_bind]

/-- Every stored packet has an erasure timer that ends within the freshness of the time the reply was made. -/
def Aged (cfg : Cfg) (s : Full) : Prop :=
  ∀ d ∈ s.pub.store, ∃ e ∈ s.pub.timers, e.2 = d.name ∧ ∃ s0 op s1, MadeOn cfg d s0 op s1 s ∧ e.1 ≤ s0.now + max cfg.freshness 10

theorem step_tick_store {cfg : Cfg} {s s' : Full} {t : Nat} (h : step cfg s (.tick t) = .ok s') : s'.pub = s.pub ∧ s'.log = s.log := by
  simp only [step, Res.ok.injEq] at h
  subst h
  split <;> exact ⟨rfl, rfl⟩

theorem step_aged {cfg : Cfg} {s s' : Full} {op : Op} (hr : Reach cfg s) (ha : Aged cfg s) (h : step cfg s op = .ok s') :
    Aged cfg s' := by
  have hinv := reach_inv hr
  have hm := step_sharp hinv h
  have hc := step_clocked (reach_clocked hr) h
  have htm : Timed s'.pub := hm.timed (fun d hd => by obtain ⟨e, he, hn, _⟩ := ha d hd; exact ⟨e, he, hn⟩)
  intro d hd
  by_cases ht : ∃ t, op = .tick t
  · obtain ⟨t, rfl⟩ := ht
    rw [(step_tick_store h).1] at hd ⊢
    obtain ⟨e, he, hn, s0, op, s1, h1, h2⟩ := ha d hd
    exact ⟨e, he, hn, s0, op, s1, h1.later h, h2⟩
  · rcases hm.kept_all d hd with ⟨hd0, hk⟩ | hsent
    · obtain ⟨e, he, hn, s0, op, s1, h1, h2⟩ := ha d hd0
      exact ⟨e, hk e he hn, hn, s0, op, s1, h1.later h, h2⟩
    · obtain ⟨e, he, hn⟩ := htm d hd
      refine ⟨e, he, hn, s, op, s', ⟨hr, h, hsent, [], rfl⟩, ?_⟩
      have h1 := (hc.1.timers e he).2
      have h2 := hc.2.2 (fun t e => ht ⟨t, e⟩)
      omega

theorem init_store {cfg : Cfg} {s : Full} (h : init cfg = .ok s) : s.pub = SegPub.empty := by
  have := init_micro h []
  unfold init at h
  rcases sendSyncInterest_ok h with ⟨_, rfl⟩ | ⟨_, name, hn, ⟨_, _, rfl⟩ | ⟨_, rfl⟩⟩ <;> rfl

theorem reach_aged {cfg : Cfg} {s : Full} (h : Reach cfg s) : Aged cfg s := by
  obtain ⟨s0, ops, h1, h2⟩ := h
  have h0 : Reach cfg s0 := ⟨s0, [], h1, rfl⟩
  have : Reach cfg s ∧ Aged cfg s := by
    refine foldRes_inv (P := fun s => Reach cfg s ∧ Aged cfg s) ops ?_ ⟨h0, ?_⟩ h2
    · rintro a op b _ ⟨hr, ha⟩ hs
      refine ⟨?_, step_aged hr ha hs⟩
      obtain ⟨i, pre, g1, g2⟩ := hr
      refine ⟨i, pre ++ [op], g1, ?_⟩
      unfold run at g2 ⊢
      rw [foldRes_append, g2, Res.ok_bind]
      simp only [foldRes, hs, Res.ok_bind]
    · intro d hd
      rw [init_store h1] at hd
      cases hd
  exact this.2

/-- Every Data that a node sends is the nack or belongs to a reply made at most the freshness ago. -/
theorem step_fresh {cfg : Cfg} {s s' : Full} {op : Op} (hr : Reach cfg s) (h : step cfg s op = .ok s') :
    ∃ ext, s'.log = s.log ++ ext ∧ ∀ d, Out.data d ∈ ext → (∃ b, nackData cfg b cfg.syncPrefix = .ok d) ∨
      ∃ s0 op0 s1, MadeOn cfg d s0 op0 s1 s' ∧ s0.now ≤ s.now ∧ s.now ≤ s0.now + max cfg.freshness 10 + cfg.lag := by
  have hm := step_sharp (reach_inv hr) h
  obtain ⟨ext, h1, h2⟩ := hm.traced.log
  refine ⟨ext, h1, fun d hd => ?_⟩
  rcases h2 _ hd with ⟨d', hd', he⟩ | hsent | ⟨b, _, hn⟩
  · cases he
    obtain ⟨e, he, _, s0, op0, s1, h3, h4⟩ := reach_aged hr d hd'
    have h5 := ((reach_clocked hr).timers e he).1
    obtain ⟨g1, g2, g3, ops, g4⟩ := h3
    have c1 := step_clocked (reach_clocked g1) g2
    have c2 := run_clocked c1.1 g4
    exact Or.inr ⟨s0, op0, s1, MadeOn.later ⟨g1, g2, g3, ops, g4⟩ h, by omega, by omega⟩
  · exact Or.inr ⟨s, op, s', ⟨hr, h, hsent, [], rfl⟩, le_refl _, by omega⟩
  · exact Or.inl ⟨b, hn⟩

theorem reach_replayed {cfg : Cfg} {s : Full} (h : Reach cfg s) : s.base.Replayed := by
  obtain ⟨ops, hm⟩ := reach_micro h
  exact hm.steps.replayed (Base.inv_new cfg) (Base.replayed_new cfg)

/-- Only calls and received replies change the table. -/
theorem step_same_base {cfg : Cfg} {s s' : Full} (hs : s.base.Inv) {op : Op} (h : step cfg s op = .ok s')
    (h1 : ∀ c, op ≠ .call c) (h2 : ∀ b acts, op ≠ .complete b acts) : s'.base = s.base := by
  cases op with
  | call c => exact absurd rfl (h1 c)
  | complete b acts => exact absurd rfl (h2 b acts)
  | recvInterest i =>
    simp only [step] at h
    split at h
    · exact onSyncInterest_base hs h
    · cases h; rfl
  | segment f =>
    simp only [step] at h
    split at h
    · cases h; split <;> rfl
    · cases h; rfl
  | error t =>
    simp only [step] at h
    split at h
    · split at h
      · cases h; split <;> rfl
      · cases h; rfl
    · cases h; rfl
  | tick t =>
    simp only [step, Res.ok.injEq] at h
    subst h
    split <;> rfl
  | fireSync =>
    simp only [step] at h
    split at h
    · split at h
      · split at h
        · exact (sendSyncInterest_core h).base
        · exact (sendSyncInterest_core h).base
      · cases h; rfl
    · cases h; rfl
  | fireDelay =>
    simp only [step] at h
    split at h
    · split at h
      · simp only [Res.bind_eq_ok, Res.ok.injEq] at h
        obtain ⟨s1, h1, rfl⟩ := h
        rw [scheduleProcess_base]
        exact processWaiting_base (s := { s with delayTimer := none }) hs h1
      · cases h; rfl
    · cases h; rfl
  | expire n =>
    simp only [step] at h
    split at h
    · cases h; split <;> rfl
    · cases h; rfl
  | fireStore => simp only [step, Res.ok.injEq] at h; subst h; rfl

end Full

/-- Without a new reply no erasure is scheduled. -/
theorem Micros.timers_of {ρ : Rules} {v v' : View} (h : Micros ρ v v') :
    v.replies.length ≤ v'.replies.length ∧ (v'.replies.length = v.replies.length → ∀ e ∈ v'.pub.timers, e ∈ v.pub.timers) := by
  induction h with
  | refl => exact ⟨le_refl _, fun _ e he => he⟩
  | @tail w v' h1 h ih =>
    cases h with
    | data now iname dname buf fr r hd h =>
      refine ⟨by simp only [List.length_append]; omega, fun he => ?_⟩
      simp only [List.length_append, List.length_cons, List.length_nil] at he
      have := ih.1
      omega
    | fire t =>
      refine ⟨ih.1, fun he e hm => ih.2 he e ?_⟩
      simp only [SegPub.fire, List.mem_filter] at hm
      exact hm.1
    | _ => exact ih

namespace Full

theorem reach_timed_store {cfg : Cfg} {s : Full} (h : Reach cfg s) : PSync.Timed s.pub := fun d hd => by
  obtain ⟨e, he, hn, _⟩ := reach_aged h d hd
  exact ⟨e, he, hn⟩

end Full

/-! ### Partial sync -/
namespace Part

/-- It is `T`; no erasure of the segment store is overdue by more than the lag, and each
comes within the freshness of the reply. -/
structure Clocked (cfg : Cfg) (T : Nat) (s : Part) : Prop where
  now : s.now = T
  timers : ∀ e ∈ s.pub.timers, T ≤ e.1 + cfg.lag ∧ e.1 ≤ T + max cfg.freshness cfg.helloFreshness

theorem Clocked.congr {cfg : Cfg} {T : Nat} {s s' : Part} (h : Clocked cfg T s) (h1 : s'.now = s.now) (h2 : s'.pub = s.pub) :
    Clocked cfg T s' := by
  obtain ⟨e1, e2⟩ := h
  exact ⟨h1.trans e1, by rw [h2]; exact e2⟩

theorem Clocked.publish {cfg : Cfg} {T : Nat} {s s' : Part} {v : Nat} {iname dname : Name} {buf : Bytes} {fr : Nat} {r : SegPub × List Data}
    (hs : Clocked cfg T s) (hfr : fr ≤ max cfg.freshness cfg.helloFreshness)
    (h : s.pub.publish cfg.imsLimit s.now v iname dname buf fr = .ok r) (h1 : s'.now = s.now) (h2 : s'.pub = r.1) :
    Clocked cfg T s' := by
  refine ⟨h1.trans hs.now, fun e he => ?_⟩
  rw [h2, (PSync.publish_ok h).2.1] at he
  rcases List.mem_append.mp he with he | he
  · exact hs.timers e he
  · simp only [List.mem_map] at he
    obtain ⟨d, _, rfl⟩ := he
    simp only [hs.now]
    omega

theorem step_clocked {cfg : Cfg} {T : Nat} {s s' : Part} {op : Op} (hs : Clocked cfg T s)
    (h : step cfg s op = .ok s') : Clocked cfg s'.now s' ∧ s.now ≤ s'.now ∧ ((∀ t, op ≠ .tick t) → s'.now = s.now) := by
  have key : ∀ {x : Part}, Clocked cfg T x → Clocked cfg x.now x ∧ s.now ≤ x.now ∧ ((∀ t, op ≠ .tick t) → x.now = s.now) := by
    intro x hx
    have := hx.now
    have h2 := hs.now
    exact ⟨this ▸ hx, by omega, fun _ => by omega⟩
  cases op with
  | addUserNode p => simp only [step, Res.ok.injEq] at h; subst h; exact key (hs.congr rfl rfl)
  | removeUserNode p =>
    simp only [step, Res.bind_eq_ok, Res.ok.injEq] at h
    obtain ⟨b, h1, rfl⟩ := h
    exact key (hs.congr rfl rfl)
  | publishName p q =>
    refine key ?_
    rcases publishName_ok h with ⟨_, rfl⟩ | ⟨cur, b, h1, h2, h3, h4⟩
    · exact hs
    · refine foldRes_inv (f := satisfyOne cfg p) (P := Clocked cfg T) s.pending ?_
        (s := { s with base := b, made := s.made ++ [(p, Full.newSeq q cur)] }) (hs.congr rfl rfl) h3
      rintro a ⟨k, e⟩ a' he hsa ha
      obtain ⟨diff, hd, ⟨hc, rfl⟩ | ⟨hc, sub, hsub, ⟨rfl, c, r, h3, h4, rfl⟩ | ⟨rfl, hth, c, r, h3, h4, rfl⟩ | ⟨rfl, hth, rfl⟩⟩⟩ := satisfyOne_ok ha
      · exact hsa.congr rfl rfl
      · exact hsa.publish (Nat.le_max_left _ _) h4 rfl rfl
      · exact hsa.publish (Nat.le_max_left _ _) h4 rfl rfl
      · exact hsa
  | recvInterest i =>
    refine key ?_
    simp only [step] at h
    split at h
    · unfold onHelloInterest at h
      split at h
      · cases h; exact hs.congr rfl rfl
      · simp only [Res.bind_eq_ok] at h
        obtain ⟨l, _, c4, _, h⟩ := h
        split at h
        · cases h; exact hs
        · simp only [Res.bind_eq_ok] at h
          obtain ⟨c, hc, h⟩ := h
          obtain ⟨r, hr, rfl⟩ := publish_ok h
          exact hs.publish (Nat.le_max_right _ _) hr rfl rfl
    · split at h
      · rename_i hp
        rcases onSyncInterest_cases' (List.isPrefixOf_iff_prefix.mp hp) h with ⟨d, hd, rfl⟩ | ⟨_, rfl | ⟨key, bf, iblt, hf, hk, h1⟩⟩
        · exact hs.congr rfl rfl
        · exact hs
        · obtain ⟨diff, hd, ⟨_, d, h2, rfl⟩ | ⟨hc, content, hcol, ⟨_, c, r, h2, h3, rfl⟩ | ⟨_, _, rfl⟩⟩⟩ := onSyncParsed_ok h1
          · exact hs.congr rfl rfl
          · exact hs.publish (Nat.le_max_left _ _) h3 rfl rfl
          · exact hs.congr rfl rfl
      · cases h; exact hs
  | tick t =>
    simp only [step, Res.ok.injEq] at h
    subst h
    split
    · rename_i ht
      simp only [Bool.and_eq_true, decide_eq_true_eq, timersAfter, List.all_eq_true] at ht
      obtain ⟨ht1, _, ht2⟩ := ht
      refine ⟨⟨rfl, fun e he => ?_⟩, ht1, fun hh => absurd rfl (hh t)⟩
      have h1 := hs.timers e he
      have h2 := ht2 e he
      have h3 := hs.now
      simp only
      omega
    · exact key hs
  | expire n =>
    refine key ?_
    simp only [step] at h
    split at h
    · split at h
      · split at h
        · cases h; exact hs.congr rfl rfl
        · cases h; exact hs
      · cases h; exact hs
    · cases h; exact hs
  | fireStore =>
    simp only [step, Res.ok.injEq] at h
    subst h
    refine key ⟨hs.now, fun e he => hs.timers e ?_⟩
    simp only [SegPub.fire, List.mem_filter] at he
    exact he.1

/-- `d` belongs to a reply made with the table of the state `r`; since then `post` happened. -/
def MadeIn (cfg : Cfg) (d : Data) (ops : List Op) (pre post : List Op) (r s : Part) : Prop :=
  ops = pre ++ post ∧ run cfg (init cfg) pre = .ok r ∧ run cfg r post = .ok s ∧
    ∃ name v buf fr, anyData cfg r.base name buf ∧ d ∈ segmentData (name.appendVersion v) buf fr

theorem MadeIn.later {cfg : Cfg} {d : Data} {ops pre post : List Op} {r s s' : Part} {op : Op} (h : MadeIn cfg d ops pre post r s)
    (h' : step cfg s op = .ok s') : MadeIn cfg d (ops ++ [op]) pre (post ++ [op]) r s' := by
  obtain ⟨rfl, h2, h3, h4⟩ := h
  refine ⟨by simp, h2, ?_, h4⟩
  unfold run at h3 ⊢
  rw [foldRes_append, h3, Res.ok_bind]
  simp only [foldRes, h', Res.ok_bind]

theorem run_snoc {cfg : Cfg} {a s s' : Part} {ops : List Op} {op : Op} (h : run cfg a ops = .ok s) (h' : step cfg s op = .ok s') :
    run cfg a (ops ++ [op]) = .ok s' := by
  unfold run at h ⊢
  rw [foldRes_append, h, Res.ok_bind]
  simp only [foldRes, h', Res.ok_bind]

/-- Every stored packet has an erasure timer that ends within the freshness of the time the reply was made. -/
structure Aged (cfg : Cfg) (ops : List Op) (s : Part) : Prop where
  run : run cfg (init cfg) ops = .ok s
  clocked : Clocked cfg s.now s
  aged : ∀ d ∈ s.pub.store, ∃ e ∈ s.pub.timers, e.2 = d.name ∧ ∃ pre post r, MadeIn cfg d ops pre post r s ∧
    e.1 ≤ r.now + max cfg.freshness cfg.helloFreshness

theorem step_aged {cfg : Cfg} {ops : List Op} {s s' : Part} {op : Op} (ha : Aged cfg ops s) (h : step cfg s op = .ok s') :
    Aged cfg (ops ++ [op]) s' := by
  have hpk : Parked cfg s := reach_parked ⟨ops, ha.run⟩
  have hm := step_micro hpk h
  have hc := step_clocked ha.clocked h
  have hrun := run_snoc ha.run h
  have htm : Timed s'.pub := hm.timed (fun d hd => by obtain ⟨e, he, hn, _⟩ := ha.aged d hd; exact ⟨e, he, hn⟩)
  refine ⟨hrun, hc.1, fun d hd => ?_⟩
  by_cases ht : ∃ t, op = .tick t
  · obtain ⟨t, rfl⟩ := ht
    have hp : s'.pub = s.pub := by
      simp only [step, Res.ok.injEq] at h
      subst h
      split <;> rfl
    rw [hp] at hd ⊢
    obtain ⟨e, he, hn, pre, post, r, h1, h2⟩ := ha.aged d hd
    exact ⟨e, he, hn, pre, post ++ [.tick t], r, h1.later h, h2⟩
  · rcases hm.kept_all d hd with ⟨hd0, hk⟩ | ⟨b, m, name, v, buf, fr, _, ⟨hb, hdat⟩, hmem⟩
    · obtain ⟨e, he, hn, pre, post, r, h1, h2⟩ := ha.aged d hd0
      exact ⟨e, hk e he hn, hn, pre, post ++ [op], r, h1.later h, h2⟩
    · obtain ⟨e, he, hn⟩ := htm d hd
      refine ⟨e, he, hn, ops ++ [op], [], s', ⟨by simp, hrun, rfl, name, v, buf, fr, hb ▸ opData_any hpk hdat, hmem⟩, ?_⟩
      have := (hc.1.timers e he).2
      omega

theorem run_aged {cfg : Cfg} {ops : List Op} {s : Part} (h : run cfg (init cfg) ops = .ok s) : Aged cfg ops s := by
  have : ∀ (ops2 ops1 : List Op) (a s : Part), Aged cfg ops1 a → run cfg a ops2 = .ok s → Aged cfg (ops1 ++ ops2) s := by
    intro ops2
    induction ops2 with
    | nil => intro ops1 a s ha hr; simp only [run, foldRes, Res.ok.injEq] at hr; subst hr; simpa using ha
    | cons op ops2 ih =>
      intro ops1 a s ha hr
      simp only [run, foldRes, Res.bind_eq_ok] at hr
      obtain ⟨b, h1, h2⟩ := hr
      have := ih _ b s (step_aged ha h1) h2
      simpa using this
  have := this ops [] (init cfg) s ⟨rfl, ⟨rfl, by simp [init, SegPub.empty]⟩, by simp [init, SegPub.empty]⟩ h
  simpa using this

/-- Every Data that a producer sends is a nack or belongs to a reply made at most the freshness ago. -/
theorem step_fresh {cfg : Cfg} {ops : List Op} {s s' : Part} {op : Op} (hr : run cfg (init cfg) ops = .ok s) (h : step cfg s op = .ok s') :
    ∃ ext, s'.log = s.log ++ ext ∧ ∀ d, Out.data d ∈ ext →
      (∃ b key bf iblt, SyncFields cfg key bf iblt ∧ nackData cfg b key = .ok d) ∨
      ∃ pre post r, MadeIn cfg d (ops ++ [op]) pre post r s' ∧ s'.now ≤ r.now + max cfg.freshness cfg.helloFreshness + cfg.lag := by
  have hpk : Parked cfg s := reach_parked ⟨ops, hr⟩
  have hm := step_micro hpk h
  have ha := run_aged hr
  obtain ⟨ext, h1, h2⟩ := hm.traced.log
  refine ⟨ext, h1, fun d hd => ?_⟩
  rcases h2 _ hd with ⟨d', hd', he⟩ | ⟨b, m, name, v, buf, fr, _, ⟨hb, hdat⟩, hmem⟩ | ⟨b, _, hn⟩
  · cases he
    obtain ⟨e, he, _, pre, post, r, h3, h4⟩ := ha.aged d hd'
    have h5 := (ha.clocked.timers e he).1
    refine Or.inr ⟨pre, post ++ [op], r, h3.later h, ?_⟩
    by_cases ht : ∃ t, op = .tick t
    · obtain ⟨t, rfl⟩ := ht
      have : s'.log = s.log := by
        simp only [step, Res.ok.injEq] at h
        subst h
        split <;> rfl
      have h6 : s'.log = s.log ++ ext := h1
      rw [this] at h6
      rw [List.self_eq_append_right.mp h6] at hd
      cases hd
    · have := (step_clocked ha.clocked h).2.2 (fun t e => ht ⟨t, e⟩)
      omega
  · exact Or.inr ⟨ops ++ [op], [], s', ⟨by simp, run_snoc hr h, rfl, name, v, buf, fr, hb ▸ opData_any hpk hdat, hmem⟩, by omega⟩
  · exact Or.inl ⟨b, hn⟩

end Part
end PSync
