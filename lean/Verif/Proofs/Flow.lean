import Verif.Proofs.Waiting
import Verif.Proofs.PartReply
import Verif.Proofs.Fetchable
import Verif.Spec.Flow
import Mathlib.Data.List.Perm.Basic
/-!
Counting: how many Data the producers put for the Interests they receive.
-/
namespace PSync
open Spec

namespace NMap
variable {β : Type}

theorem set_perm {m : NMap β} (hm : Sorted m) (k : Name) (v : β) : (m.set k v).Perm ((k, v) :: m.erase k) := by
  have hse := sorted_erase hm k
  refine (List.perm_ext_iff_of_nodup (nodup (sorted_set hm k v)) ?_).2 ?_
  · rw [List.nodup_cons]
    refine ⟨fun h => ?_, nodup hse⟩
    have := find_of_mem hse h
    rw [find_erase] at this
    simp at this
  · rintro ⟨k', v'⟩
    rw [← find_iff (sorted_set hm k v), find_set, List.mem_cons, ← find_iff hse, find_erase]
    by_cases h : k = k'
    · subst h
      simp [eq_comm]
    · have h' : ¬ k' = k := fun e => h e.symm
      simp [h, h']

theorem find_perm {m : NMap β} (hm : Sorted m) {k : Name} {v : β} (h : m.find k = some v) : m.Perm ((k, v) :: m.erase k) := by
  have : m.set k v = m := by
    apply ext (sorted_set hm k v) hm
    intro k'
    rw [find_set]
    split
    · rename_i e; subst e; exact h.symm
    · rfl
  have hp := set_perm hm k v
  rw [this] at hp
  exact hp

theorem erase_absent {m : NMap β} {k : Name} (h : m.find k = none) : m.erase k = m := by
  rw [find_eq_none] at h
  apply List.filter_eq_self.2
  rintro ⟨k', v'⟩ he
  simp only [decide_eq_true_eq]
  rintro rfl
  exact h _ he

theorem length_erase_le (m : NMap β) (k : Name) : (m.erase k).length ≤ m.length := List.length_filter_le _ _

theorem length_set {m : NMap β} (hm : Sorted m) (k : Name) (v : β) : (m.set k v).length = (m.erase k).length + 1 := by
  rw [(set_perm hm k v).length_eq]; rfl

end NMap

namespace Full

/-- Delayed Interests that have not been dealt with. -/
def unmarked (m : NMap Waiting) : Nat := m.countP (fun e => decide (e.2.numTries ≠ MAX_TRIES))

theorem unmarked_set {m : NMap Waiting} (hm : m.Sorted) (k : Name) (w : Waiting) :
    unmarked (m.set k w) = unmarked (m.erase k) + if w.numTries = MAX_TRIES then 0 else 1 := by
  unfold unmarked
  rw [(NMap.set_perm hm k w).countP_eq, List.countP_cons]
  by_cases h : w.numTries = MAX_TRIES <;> simp [h]

theorem unmarked_find {m : NMap Waiting} (hm : m.Sorted) {k : Name} {w : Waiting} (h : m.find k = some w) :
    unmarked m = unmarked (m.erase k) + if w.numTries = MAX_TRIES then 0 else 1 := by
  unfold unmarked
  rw [(NMap.find_perm hm h).countP_eq, List.countP_cons]
  by_cases h : w.numTries = MAX_TRIES <;> simp [h]

theorem unmarked_le {m : NMap Waiting} (hm : m.Sorted) (k : Name) : unmarked m ≤ unmarked (m.erase k) + 1 := by
  cases h : m.find k with
  | none => rw [NMap.erase_absent h]; omega
  | some w => rw [unmarked_find hm h]; split <;> omega

theorem unmarked_erase {m : NMap Waiting} (hm : m.Sorted) (k : Name) : unmarked (m.erase k) ≤ unmarked m := by
  cases h : m.find k with
  | none => rw [NMap.erase_absent h]
  | some w => rw [unmarked_find hm h]; omega

theorem unmarked_done {m : NMap Waiting} (hm : m.Sorted) {k : Name} (h : ∀ w, m.find k = some w → w.numTries = MAX_TRIES) :
    unmarked m = unmarked (m.erase k) := by
  cases h' : m.find k with
  | none => rw [NMap.erase_absent h']
  | some w => rw [unmarked_find hm h', if_pos (h w h')]; rfl

theorem unmarked_mark {s : Full} (hm : s.waiting.Sorted) (k : Name) :
    unmarked (s.markWaiting k).waiting = unmarked (s.waiting.erase k) := by
  unfold markWaiting
  split
  · rename_i w hw
    rw [unmarked_set hm]; simp
  · rename_i hw
    rw [NMap.erase_absent hw]

theorem marked {s : Full} {k : Name} {w : Waiting} (h : (s.markWaiting k).waiting.find k = some w) : w.numTries = MAX_TRIES := by
  rw [markWaiting_find, if_pos rfl, Option.map_eq_some_iff] at h
  obtain ⟨w0, _, rfl⟩ := h
  rfl

/-- The packets put so far. -/
def sent (s : Full) : Nat := (dataOf s.log).length

/-- The store holds only old packets and packets named after replies to names in `S`. -/
def Grown (S : Name → Prop) (p p' : SegPub) : Prop :=
  ∀ x ∈ p'.store, x ∈ p.store ∨ ∃ n a b, S n ∧ x.name = n ++ [a, b]

theorem Grown.refl (S : Name → Prop) (p : SegPub) : Grown S p p := fun _ h => Or.inl h

theorem Grown.trans {S : Name → Prop} {a b c : SegPub} (h : Grown S a b) (h' : Grown S b c) : Grown S a c := fun x hx =>
  (h' x hx).elim (h x) Or.inr

theorem Grown.mono {S T : Name → Prop} {a b : SegPub} (h : Grown S a b) (hst : ∀ n, S n → T n) : Grown T a b := fun x hx =>
  (h x hx).imp id (fun ⟨n, u, v, h1, h2⟩ => ⟨n, u, v, hst n h1, h2⟩)

theorem Grown.none {S : Name → Prop} {p p' : SegPub} (h : Grown S p p') {k : Name} (hk : p.replyFromStore k = none)
    (hS : ∀ n, S n → n.length = k.length ∧ n ≠ k) : p'.replyFromStore k = none := by
  unfold SegPub.replyFromStore at *
  rw [storeFind_none] at *
  intro x hx
  rcases h x hx with h1 | ⟨n, a, b, h1, h2⟩
  · exact hk x h1
  · obtain ⟨hl, hne⟩ := hS n h1
    rw [h2, Bool.eq_false_iff]
    intro hp
    rw [List.isPrefixOf_iff_prefix] at hp
    exact hne ((List.prefix_of_prefix_length_le (List.prefix_append n [a, b]) hp hl.le).eq_of_length hl)

theorem publish_grown {limit now v : Nat} {p : SegPub} {iname dname : Name} {buf : Bytes} {fr : Nat}
    {r : SegPub × List Data} (h : p.publish limit now v iname dname buf fr = .ok r) :
    Grown (fun n => n = dname) p r.1 ∧ r.2.length ≤ 1 := by
  obtain ⟨h1, _, last, seg, _, _, h2⟩ := PSync.publish_ok h
  constructor
  · intro x hx
    rw [h1] at hx
    rcases storeFold_mem _ hx with h3 | h3
    · exact Or.inl h3
    · obtain ⟨j, _, h4, _⟩ := segmentData_mem h3
      unfold Name.appendVersion at h4
      rw [List.append_assoc] at h4
      exact Or.inr ⟨dname, _, _, rfl, h4⟩
  · rw [h2]
    cases (segmentData (dname.appendVersion v) buf fr)[seg]? <;> simp

/-- Effect of handling an Interest. -/
inductive Effect (cfg : Cfg) (i : Interest) (t : Bool) (s s' : Full) : Prop
  | nothing : sent s' = sent s → s'.pending = s.pending → s'.waiting = s.waiting → s'.pub = s.pub → Effect cfg i t s s'
  | waits : t = false → s.waiting.find i.name = none → sent s' = sent s → s'.pending = s.pending →
      s'.waiting = s.waiting.set i.name ⟨0, i.nonce⟩ → s'.pub = s.pub → Effect cfg i t s s'
  | marks : sent s' = sent s → s'.pending = s.pending → s'.waiting = (s.markWaiting i.name).waiting → s'.pub = s.pub →
      Effect cfg i t s s'
  | parks (e : FPending) : sent s' = sent s → s'.pending = s.pending.set i.name e →
      s'.waiting = (if t then (s.markWaiting i.name).waiting else s.waiting) → s'.pub = s.pub → Effect cfg i t s s'
  | replies : sent s' ≤ sent s + 1 → s'.pending.length ≤ s.pending.length →
      s'.waiting = (s.markWaiting i.name).waiting → Grown (fun n => n = i.name) s.pub s'.pub → Effect cfg i t s s'
  | old (d : Data) : sent s' = sent s + 1 → s'.pending = s.pending → s'.waiting = s.waiting → s'.pub = s.pub →
      (s.pub.replyFromStore i.name = some d ∨ (i.name.drop cfg.syncPrefix.length).length = 4) → Effect cfg i t s s'

theorem sendSyncData_sent {cfg : Cfg} {s s' : Full} {name : Name} {content : List Name} {fr : Nat}
    (h : sendSyncData cfg s name (encodeNames content) fr = .ok s') :
    sent s' ≤ sent s + 1 ∧ Grown (fun n => n = name) s.pub s'.pub := by
  obtain ⟨buf, r, is, _, h2, h3, h4, h5, _⟩ := sendSyncData_replied h
  obtain ⟨g1, g2⟩ := publish_grown h2
  refine ⟨?_, h3 ▸ g1⟩
  unfold sent
  rw [h4, dataOf_append, dataOf_append, dataOf_map, h5.dataOf]
  simp only [List.append_nil, List.length_append]
  omega

theorem sendSyncInterest_sent {cfg : Cfg} {s s' : Full} (h : sendSyncInterest cfg s = .ok s') :
    sent s' = sent s ∧ s'.pub = s.pub := by
  obtain ⟨h1, is, h2, h3⟩ := sendSyncInterest_log h
  refine ⟨?_, h1⟩
  unfold sent
  rw [h2, dataOf_append, h3.dataOf, List.append_nil]

theorem markWaiting_congr {s s1 : Full} (h : s1.waiting = s.waiting) (n : Name) :
    (s1.markWaiting n).waiting = (s.markWaiting n).waiting := by
  unfold markWaiting
  rw [h]
  split
  · rfl
  · exact h

theorem sent_emit (s : Full) (d : Data) : sent (s.emit (.data d)) = sent s + 1 := by
  unfold sent emit
  rw [dataOf_append]
  simp [dataOf]

theorem markWaiting_sent (s : Full) (n : Name) : sent (s.markWaiting n) = sent s ∧ (s.markWaiting n).pub = s.pub ∧
    (s.markWaiting n).pending = s.pending := by
  rw [markWaiting_eq]; exact ⟨rfl, rfl, rfl⟩

theorem waitOrGiveUp_effect (cfg : Cfg) (s : Full) (i : Interest) (t : Bool) :
    Effect cfg i t s (waitOrGiveUp cfg s i t).1 := by
  unfold waitOrGiveUp
  cases hw : s.waiting.find i.name with
  | none =>
    simp only
    cases t with
    | true => exact .nothing rfl rfl rfl rfl
    | false =>
      simp only [Bool.not_false, if_true]
      rw [scheduleProcess_eq]
      exact .waits rfl hw rfl rfl rfl rfl
  | some w =>
    simp only
    cases t with
    | false => exact .nothing rfl rfl rfl rfl
    | true =>
      simp only [if_true]
      split
      · obtain ⟨h1, h2, h3⟩ := markWaiting_sent s i.name
        exact .marks h1 h3 rfl h2
      · exact .nothing rfl rfl rfl rfl

theorem Effect.congr {cfg : Cfg} {i : Interest} {t : Bool} {s s1 s2 : Full} (h : Effect cfg i t s s1) (hl : sent s2 = sent s1)
    (hp : s2.pending = s1.pending) (hw : s2.waiting = s1.waiting) (hb : s2.pub = s1.pub) : Effect cfg i t s s2 := by
  cases h with
  | nothing h1 h2 h3 h4 => exact .nothing (hl.trans h1) (hp.trans h2) (hw.trans h3) (hb.trans h4)
  | waits h0 h0' h1 h2 h3 h4 => exact .waits h0 h0' (hl.trans h1) (hp.trans h2) (hw.trans h3) (hb.trans h4)
  | marks h1 h2 h3 h4 => exact .marks (hl.trans h1) (hp.trans h2) (hw.trans h3) (hb.trans h4)
  | parks e h1 h2 h3 h4 => exact .parks e (hl.trans h1) (hp.trans h2) (hw.trans h3) (hb.trans h4)
  | replies h1 h2 h3 h4 => exact .replies (hl ▸ h1) (hp ▸ h2) (hw.trans h3) (hb ▸ h4)
  | old d h1 h2 h3 h4 h5 => exact .old d (hl.trans h1) (hp.trans h2) (hw.trans h3) (hb.trans h4) h5

theorem onUndecodable_effect {cfg : Cfg} {s s' : Full} {i : Interest} {t : Bool} {n : Nat} {d : IBLTDiff}
    (h : onUndecodable cfg s i t n d = .ok s') : Effect cfg i t s s' := by
  unfold onUndecodable at h
  split at h
  · have hw := waitOrGiveUp_effect cfg s i t
    generalize waitOrGiveUp cfg s i t = x at h hw
    obtain ⟨s1, g⟩ := x
    cases g
    · simp only [Res.ok.injEq] at h; subst h; exact hw
    · simp only at h
      have hc := sendSyncInterest_core h
      obtain ⟨h1, h2⟩ := sendSyncInterest_sent h
      exact hw.congr h1 hc.pending hc.waiting h2
  · split at h
    · cases h; exact .nothing rfl rfl rfl rfl
    · simp only at h
      split at h
      · cases h
        obtain ⟨h1, h2, h3⟩ := markWaiting_sent s i.name
        exact .marks h1 h3 rfl h2
      · simp only [Res.bind_eq_ok, Res.ok.injEq] at h
        obtain ⟨s1, h1, rfl⟩ := h
        have hc := sendSyncData_core h1
        obtain ⟨h2, h3⟩ := sendSyncData_sent h1
        obtain ⟨k1, k2, k3⟩ := markWaiting_sent (s1.deletePending i.name) i.name
        refine .replies ?_ ?_ (markWaiting_congr (s := s) (s1 := s1.deletePending i.name) hc.waiting _) ?_
        · rw [k1]; exact h2
        · rw [k3]
          simp only [deletePending, hc.pending]
          exact NMap.length_erase_le _ _
        · rw [k2]; exact h3

theorem onDecoded_effect {cfg : Cfg} {s s' : Full} {i : Interest} {t : Bool} {ib : Table}
    {d : IBLTDiff} (h : onDecoded cfg s i t ib d = .ok s') : Effect cfg i t s s' := by
  unfold onDecoded at h
  split at h
  · simp only [Res.ok.injEq] at h
    subst h
    cases t with
    | false => exact .parks _ rfl rfl rfl rfl
    | true =>
      simp only [if_true]
      generalize hx : ({ s with pending := s.pending.set i.name ⟨((s.pending.find i.name).getD ⟨ib, 0⟩).iblt, s.now + i.lifetime⟩ } : Full) = x
      obtain ⟨k1, k2, k3⟩ := markWaiting_sent x i.name
      subst hx
      refine .parks _ k1 k3 ?_ k2
      rw [if_pos rfl]
      have hmc := fun (x : Full) (h : x.waiting = s.waiting) => markWaiting_congr (s := s) (s1 := x) h i.name
      exact hmc _ rfl
  · split at h
    · simp only [Res.ok.injEq] at h
      subst h
      exact waitOrGiveUp_effect _ _ _ _
    · generalize collect d.negative s.base d.positive [] = x at h
      obtain ⟨content, b⟩ := x
      simp only at h
      split at h
      · cases h; exact .nothing rfl rfl rfl rfl
      · simp only [Res.bind_eq_ok, Res.ok.injEq] at h
        obtain ⟨s1, h1, rfl⟩ := h
        have hc := sendSyncData_core h1
        obtain ⟨h2, h3⟩ := sendSyncData_sent h1
        obtain ⟨k1, k2, k3⟩ := markWaiting_sent s1 i.name
        refine .replies ?_ ?_ (markWaiting_congr (s := s) hc.waiting _) ?_
        · rw [k1]; exact h2
        · rw [k3, hc.pending]
        · rw [k2]; exact h3

theorem onSyncInterest_effect {cfg : Cfg} {s s' : Full} {i : Interest} {t : Bool}
    (h : onSyncInterest cfg s i t = .ok s') : Effect cfg i t s s' := by
  rcases onSyncInterest_cases h with ⟨d, hd, rfl⟩ | ⟨_, ⟨d, h4, _, rfl⟩ | rfl | ⟨c2, c1, num, ib, df, _, _, _, _, _, _, h1⟩⟩
  · exact .old d (sent_emit _ _) rfl rfl rfl (Or.inl hd)
  · exact .old d (sent_emit _ _) rfl rfl rfl (Or.inr h4)
  · exact .nothing rfl rfl rfl rfl
  · rcases h1 with ⟨_, h1⟩ | ⟨_, h1⟩
    · exact onUndecodable_effect h1
    · exact onDecoded_effect h1

/-- The potential: packets put, Interests parked, Interests delayed and not dealt with. -/
def flow (s : Full) : Nat := sent s + s.pending.length + unmarked s.waiting

theorem length_park {m : NMap FPending} (hm : m.Sorted) (k : Name) (e : FPending) : (m.set k e).length ≤ m.length + 1 := by
  rw [NMap.length_set hm]
  have := NMap.length_erase_le m k
  omega

/-- One Interest raises the potential by one at most. -/
theorem Effect.received {cfg : Cfg} {i : Interest} {s s' : Full} (h : Effect cfg i false s s') (hs : s.waiting.Sorted)
    (hp : s.pending.Sorted) : flow s' ≤ flow s + 1 := by
  unfold flow
  have hu := unmarked_erase hs i.name
  cases h with
  | nothing h1 h2 h3 h4 => rw [h1, h2, h3]; omega
  | waits h0 h0' h1 h2 h3 h4 =>
    rw [h1, h2, h3, unmarked_set hs]
    split <;> omega
  | marks h1 h2 h3 h4 => rw [h1, h2, h3, unmarked_mark hs]; omega
  | parks e h1 h2 h3 h4 =>
    have := length_park hp i.name e
    rw [h1, h2, h3]
    simp only [Bool.false_eq_true, if_false]
    omega
  | replies h1 h2 h3 h4 => rw [h3, unmarked_mark hs]; omega
  | old d h1 h2 h3 h4 h5 => rw [h1, h2, h3]; omega

/-- A retry uses up the delayed Interest or changes nothing. -/
theorem Effect.retried {cfg : Cfg} {i : Interest} {s s' : Full} (h : Effect cfg i true s s') (hs : s.waiting.Sorted)
    (hp : s.pending.Sorted) (hlen : (i.name.drop cfg.syncPrefix.length).length = 2)
    (hst : s.pub.replyFromStore i.name = none) :
    sent s' + s'.pending.length + unmarked s'.waiting ≤ sent s + s.pending.length + unmarked (s.waiting.erase i.name) + 1 := by
  have hu := unmarked_le hs i.name
  cases h with
  | nothing h1 h2 h3 h4 => rw [h1, h2, h3]; omega
  | waits h0 => cases h0
  | marks h1 h2 h3 h4 => rw [h1, h2, h3, unmarked_mark hs]; omega
  | parks e h1 h2 h3 h4 =>
    have := length_park hp i.name e
    rw [h1, h2, h3, if_pos rfl, unmarked_mark hs]
    omega
  | replies h1 h2 h3 h4 => rw [h3, unmarked_mark hs]; omega
  | old d h1 h2 h3 h4 h5 =>
    rcases h5 with h5 | h5
    · rw [hst] at h5; cases h5
    · omega

/-- The store answers no Interest that is delayed and not dealt with. -/
def Unanswered (s : Full) : Prop :=
  ∀ n w, s.waiting.find n = some w → w.numTries ≠ MAX_TRIES → s.pub.replyFromStore n = none

theorem len_eq {n k l : Name} (h1 : (n.drop l.length).length = 2) (h2 : (k.drop l.length).length = 2) : n.length = k.length := by
  rw [List.length_drop] at h1 h2
  omega

theorem Effect.unanswered {cfg : Cfg} {i : Interest} {t : Bool} {s s' : Full} (h : Effect cfg i t s s') (hl : Lists cfg s)
    (ho : (s'.pub = s.pub ∧ s'.waiting = s.waiting) ∨
      (s.pub.replyFromStore i.name = none ∧ (i.name.drop cfg.syncPrefix.length).length = 2))
    (hu : Unanswered s) : Unanswered s' := by
  rcases ho with ⟨h1, h2⟩ | ⟨hn, hlen⟩
  · unfold Unanswered; rw [h1, h2]; exact hu
  have hm : s'.waiting = (s.markWaiting i.name).waiting → s'.pub = s.pub → Unanswered s' := by
    intro h1 h2 n w hw hne
    rw [h1] at hw
    rw [h2]
    by_cases e : i.name = n
    · subst e; exact hn
    · rw [markWaiting_find, if_neg e] at hw
      exact hu n w hw hne
  cases h with
  | nothing h1 h2 h3 h4 => unfold Unanswered; rw [h3, h4]; exact hu
  | waits h0 h0' h1 h2 h3 h4 =>
    intro n w hw hne
    rw [h4]
    rw [h3, NMap.find_set] at hw
    split at hw
    · rename_i e; subst e; exact hn
    · exact hu n w hw hne
  | marks h1 h2 h3 h4 => exact hm h3 h4
  | parks e h1 h2 h3 h4 =>
    cases t with
    | true => exact hm (by simpa using h3) h4
    | false =>
      intro n w hw hne
      rw [h4]
      rw [h3] at hw
      exact hu n w hw hne
  | replies h1 h2 h3 h4 =>
    intro n w hw hne
    rw [h3] at hw
    by_cases e : i.name = n
    · subst e; exact absurd (marked hw) hne
    · rw [markWaiting_find, if_neg e] at hw
      refine h4.none (hu n w hw hne) ?_
      rintro m rfl
      exact ⟨len_eq hlen (hl.len n w hw), e⟩
  | old d h1 h2 h3 h4 h5 => unfold Unanswered; rw [h3, h4]; exact hu

theorem onSyncInterest_origin {cfg : Cfg} {s s' : Full} {i : Interest} {t : Bool}
    (h : onSyncInterest cfg s i t = .ok s') : (s'.pub = s.pub ∧ s'.waiting = s.waiting) ∨
      (s.pub.replyFromStore i.name = none ∧ (i.name.drop cfg.syncPrefix.length).length = 2) := by
  rcases onSyncInterest_cases h with ⟨d, hd, rfl⟩ | ⟨h0, ⟨d, h4, _, rfl⟩ | rfl | ⟨c2, c1, num, ib, df, h2, _⟩⟩
  · exact Or.inl ⟨rfl, rfl⟩
  · exact Or.inl ⟨rfl, rfl⟩
  · exact Or.inl ⟨rfl, rfl⟩
  · exact Or.inr ⟨h0, h2⟩

theorem processOne_flow {cfg : Cfg} {s s' : Full} {n : Name} (hl : Lists cfg s) (hu : Unanswered s)
    (h : processOne cfg s n = .ok s') : flow s' ≤ flow s ∧ Unanswered s' ∧ Lists cfg s' := by
  have hr := processOne_retried h (fun w hw => hl.tries n w hw)
  have hl' : Lists cfg s' := by
    refine ⟨hr.psorted hl.psorted, hr.sorted hl.sorted, ?_, ?_, ?_⟩
    · intro k w hw
      by_cases e : k = n
      · subst e
        rcases hr.same with h1 | ⟨w0, h1, h2, h3⟩
        · rw [h1] at hw; cases hw
        · rw [h3] at hw; cases hw; exact h2.le
      · rw [hr.other k e] at hw; exact hl.tries k w hw
    · intro k w hw
      by_cases e : k = n
      · subst e
        rcases hr.same with h1 | ⟨w0, h1, h2, h3⟩
        · rw [h1] at hw; cases hw
        · exact hl.len k w0 h1
      · rw [hr.other k e] at hw; exact hl.len k w hw
    · intro m e he
      rcases hr.park m e he with h1 | ⟨rfl, _⟩
      · exact hl.plen m e h1
      · cases hw : s.waiting.find m with
        | some w => exact hl.len m w hw
        | none =>
          simp only [processOne, hw, Res.ok.injEq] at h
          subst h
          exact hl.plen m e he
  refine (fun ⟨a, b⟩ => ⟨a, b, hl'⟩ : flow s' ≤ flow s ∧ Unanswered s' → _) ?_
  unfold processOne at h
  cases hw : s.waiting.find n with
  | none =>
    simp only [hw, Res.ok.injEq] at h
    subst h
    exact ⟨Nat.le_refl _, hu⟩
  | some w =>
    simp only [hw] at h
    split at h
    · cases h
      constructor
      · have := unmarked_erase hl.sorted n
        unfold flow
        simp only [sent]
        omega
      · intro k w' hk hne
        simp only [NMap.find_erase] at hk
        split at hk
        · cases hk
        · exact hu k w' hk hne
    · rename_i hmax
      simp only [Res.bind_eq_ok] at h
      obtain ⟨s1, h1, h2⟩ := h
      generalize hs0 : ({ s with waiting := s.waiting.set n { w with numTries := w.numTries + 1 } } : Full) = s0 at h1
      have hw0 : s0.waiting = s.waiting.set n { w with numTries := w.numTries + 1 } := by rw [← hs0]
      have hp0 : s0.pending = s.pending := by rw [← hs0]
      have hb0 : s0.pub = s.pub := by rw [← hs0]
      have hd0 : sent s0 = sent s := by rw [← hs0]; rfl
      have hst : s0.pub.replyFromStore n = none := by rw [hb0]; exact hu n w hw hmax
      have hsort : s0.waiting.Sorted := by rw [hw0]; exact NMap.sorted_set hl.sorted _ _
      have hl0 : Lists cfg s0 := by
        refine ⟨hp0 ▸ hl.psorted, hsort, ?_, ?_, by rw [hp0]; exact hl.plen⟩
        · intro k w' hk
          rw [hw0, NMap.find_set] at hk
          split at hk
          · cases hk
            have := hl.tries n w hw
            simp only
            omega
          · exact hl.tries k w' hk
        · intro k w' hk
          rw [hw0, NMap.find_set] at hk
          split at hk
          · rename_i e; subst e; exact hl.len n w hw
          · exact hl.len k w' hk
      have hu0 : Unanswered s0 := by
        intro k w' hk hne
        rw [hb0]
        rw [hw0, NMap.find_set] at hk
        split at hk
        · rename_i e; subst e; exact hu n w hw hmax
        · exact hu k w' hk hne
      have ef := onSyncInterest_effect h1
      have c1 := ef.retried hsort (hp0 ▸ hl.psorted) (hl.len n w hw) hst
      have c2 := ef.unanswered hl0 (onSyncInterest_origin h1) hu0
      have hsort1 := (onSyncInterest_handled h1).sorted hsort
      have c3 : unmarked (s0.waiting.erase n) + 1 = unmarked s.waiting := by
        have e1 := unmarked_find hl.sorted hw
        rw [if_neg hmax] at e1
        have e2 : s0.waiting.erase n = s.waiting.erase n := by
          apply NMap.ext (NMap.sorted_erase hsort n) (NMap.sorted_erase hl.sorted n)
          intro k
          rw [NMap.find_erase, NMap.find_erase, hw0, NMap.find_set]
          split <;> rfl
        rw [e2, e1]
      have c4 : flow s1 ≤ flow s := by
        unfold flow
        simp only at c1
        rw [hd0, hp0] at c1
        omega
      cases hw2 : s1.waiting.find n with
      | none =>
        simp only [hw2, Res.ok.injEq] at h2
        subst h2
        exact ⟨c4, c2⟩
      | some w2 =>
        simp only [hw2] at h2
        split at h2
        · cases h2
          constructor
          · have := unmarked_erase hsort1 n
            refine Nat.le_trans ?_ c4
            unfold flow
            simp only [sent]
            omega
          · intro k w' hk hne
            simp only [NMap.find_erase] at hk
            split at hk
            · cases hk
            · exact c2 k w' hk hne
        · cases h2
          exact ⟨c4, c2⟩

theorem processWaiting_flow {cfg : Cfg} {s s' : Full} (hl : Lists cfg s) (hu : Unanswered s)
    (h : processWaiting cfg s = .ok s') : flow s' ≤ flow s ∧ Unanswered s' := by
  have := foldRes_inv (P := fun a : Full => flow a ≤ flow s ∧ Unanswered a ∧ Lists cfg a) _
    (fun a _ b _ ⟨h1, h2, h3⟩ h4 => by
      obtain ⟨k1, k2, k3⟩ := processOne_flow h3 h2 h4
      exact ⟨k1.trans h1, k2, k3⟩) ⟨Nat.le_refl _, hu, hl⟩ h
  exact ⟨this.1, this.2.1⟩

theorem satisfyOne_flow {cfg : Cfg} {u : Name} {s s' : Full} {e : Name × FPending} (he : s.pending.find e.1 = some e.2)
    (hl : Lists cfg s) (ha : NotBoth s) (hu : Unanswered s) (h : satisfyOne cfg u s e = .ok s') :
    flow s' ≤ flow s ∧ Unanswered s' ∧ s'.pending = s.pending.erase e.1 ∧ s'.waiting = s.waiting := by
  unfold satisfyOne at h
  simp only [Res.bind_eq_ok, Res.ok.injEq] at h
  obtain ⟨d, _, s1, h4, rfl⟩ := h
  have hc := sendSyncData_core h4
  obtain ⟨h1, h2⟩ := sendSyncData_sent h4
  have hp : (s1.deletePending e.1).pending = s.pending.erase e.1 := by simp only [deletePending, hc.pending]
  have hw : (s1.deletePending e.1).waiting = s.waiting := hc.waiting
  have hd : sent (s1.deletePending e.1) = sent s1 := rfl
  have hlen := (NMap.find_perm hl.psorted he).length_eq
  refine ⟨?_, ?_, hp, hw⟩
  · unfold flow
    rw [hp, hw, hd]
    simp only [List.length_cons] at hlen
    omega
  · intro n w hn hne
    rw [hw] at hn
    have hb : (s1.deletePending e.1).pub = s1.pub := rfl
    rw [hb]
    refine h2.none (hu n w hn hne) ?_
    rintro m rfl
    refine ⟨len_eq (hl.plen _ _ he) (hl.len n w hn), ?_⟩
    rintro rfl
    exact hne (ha _ _ _ he hn)

theorem satisfyLoop_flow {cfg : Cfg} {u : Name} (es : List (Name × FPending)) : ∀ {s s' : Full}, s.pending = es →
    Lists cfg s → NotBoth s → Unanswered s → foldRes (satisfyOne cfg u) s es = .ok s' →
    flow s' ≤ flow s ∧ Unanswered s' := by
  induction es with
  | nil =>
    intro s s' _ _ _ hu h
    simp only [foldRes, Res.ok.injEq] at h
    subst h
    exact ⟨Nat.le_refl _, hu⟩
  | cons e es ih =>
    intro s s' hes hl ha hu h
    simp only [foldRes, Res.bind_eq_ok] at h
    obtain ⟨s1, h1, h2⟩ := h
    have he : s.pending.find e.1 = some e.2 := NMap.find_of_mem hl.psorted (by rw [hes]; simp)
    obtain ⟨k1, k2, k3, k4⟩ := satisfyOne_flow he hl ha hu h1
    have hsh : ∀ n v, s1.pending.find n = some v → s.pending.find n = some v := by
      intro n v hn
      rw [k3, NMap.find_erase] at hn
      split at hn
      · cases hn
      · exact hn
    have hp1 : s1.pending = es := by
      rw [k3]
      have hpw := hl.psorted
      rw [hes] at hpw ⊢
      unfold NMap.Sorted at hpw
      rw [List.pairwise_cons] at hpw
      unfold NMap.erase
      rw [List.filter_cons]
      simp only [ne_eq, not_true_eq_false, decide_false, Bool.false_eq_true, if_false]
      apply List.filter_eq_self.2
      intro y hy
      rw [decide_eq_true_eq]
      intro hye
      have := hpw.1 y hy
      rw [hye, Name.lt_irrefl] at this
      cases this
    have hl1 : Lists cfg s1 :=
      ⟨by rw [k3]; exact NMap.sorted_erase hl.psorted _, k4 ▸ hl.sorted, k4 ▸ hl.tries, k4 ▸ hl.len,
        fun n v hn => hl.plen n v (hsh n v hn)⟩
    obtain ⟨j1, j2⟩ := ih hp1 hl1 (fun n v w hn hw => ha n v w (hsh n v hn) (by rw [← k4]; exact hw)) k2 h2
    exact ⟨j1.trans k1, j2⟩

theorem Unanswered.congr {s s' : Full} (hu : Unanswered s) (hw : s'.waiting = s.waiting) (hb : s'.pub = s.pub) :
    Unanswered s' := by
  unfold Unanswered; rw [hw, hb]; exact hu

theorem flow_congr {s s' : Full} (hd : sent s' = sent s) (hp : s'.pending = s.pending) (hw : s'.waiting = s.waiting) :
    flow s' = flow s := by
  unfold flow; rw [hd, hp, hw]

theorem call_flow {cfg : Cfg} {s s' : Full} {c : Call} (hl : Lists cfg s) (ha : NotBoth s) (hu : Unanswered s)
    (h : call cfg s c = .ok s') : flow s' ≤ flow s ∧ Unanswered s' := by
  cases c with
  | addUserNode p =>
    simp only [call, Res.ok.injEq] at h
    subst h
    exact ⟨Nat.le_refl _, hu⟩
  | removeUserNode p =>
    simp only [call, Res.bind_eq_ok, Res.ok.injEq] at h
    obtain ⟨b, h1, rfl⟩ := h
    exact ⟨Nat.le_refl _, hu⟩
  | publishName p q =>
    simp only [call, publishName] at h
    split at h
    · cases h; exact ⟨Nat.le_refl _, hu⟩
    · rename_i cur _
      simp only [Res.bind_eq_ok] at h
      obtain ⟨b, _, h2⟩ := h
      exact satisfyLoop_flow (s := { s with base := b, waitOut := false, made := s.made ++ [(p, newSeq q cur)] }) _ rfl
        ⟨hl.psorted, hl.sorted, hl.tries, hl.len, hl.plen⟩ ha hu h2

theorem Shrunk.notBoth {s s' : Full} (h : Shrunk s s') (ha : NotBoth s) : NotBoth s' := fun n e w hn hw =>
  ha n e w (h.park n e hn) (by rw [← h.waiting]; exact hw)

theorem calls_flow {cfg : Cfg} {s s' : Full} {cs : List Call} (hl : Lists cfg s) (ha : NotBoth s) (hu : Unanswered s)
    (h : foldRes (call cfg) s cs = .ok s') : flow s' ≤ flow s ∧ Unanswered s' := by
  have := foldRes_inv (P := fun a : Full => flow a ≤ flow s ∧ Unanswered a ∧ Lists cfg a ∧ NotBoth a) _
    (fun a _ b _ ⟨h1, h2, h3, h5⟩ h4 => by
      obtain ⟨k1, k2⟩ := call_flow h3 h5 h2 h4
      have hs := call_shrunk h4
      exact ⟨k1.trans h1, k2, hs.lists h3, hs.notBoth h5⟩) ⟨Nat.le_refl _, hu, hl, ha⟩ h
  exact ⟨this.1, this.2.1⟩

theorem deletePending_flow (s : Full) (n : Name) : flow (s.deletePending n) ≤ flow s := by
  unfold flow deletePending
  have := NMap.length_erase_le s.pending n
  simp only [sent]
  omega

theorem fire_unanswered {s : Full} {t : Nat} (hu : Unanswered s) : Unanswered { s with pub := s.pub.fire t } := by
  intro n w hn hne
  have h := hu n w hn hne
  unfold SegPub.replyFromStore at *
  rw [storeFind_none] at *
  intro x hx
  simp only [SegPub.fire] at hx
  exact h x (eraseFold_mem _ |>.1 hx).1

theorem step_flow {cfg : Cfg} {s s' : Full} {op : Op} (hl : Lists cfg s) (ha : NotBoth s) (hu : Unanswered s)
    (h : step cfg s op = .ok s') : flow s' ≤ flow s + (if fullAccepts cfg op then 1 else 0) ∧ Unanswered s' := by
  cases op with
  | call c => exact call_flow hl ha hu h
  | recvInterest i =>
    simp only [step] at h
    split at h
    · rename_i hp
      have ef := onSyncInterest_effect h
      refine ⟨?_, ef.unanswered hl (onSyncInterest_origin h) hu⟩
      rw [if_pos (show fullAccepts cfg (.recvInterest i) = true from hp)]
      exact ef.received hl.sorted hl.psorted
    · cases h; exact ⟨Nat.le_add_right _ _, hu⟩
  | segment f =>
    simp only [step] at h
    split at h
    · cases h
      split <;> exact ⟨Nat.le_refl _, hu⟩
    · cases h; exact ⟨Nat.le_refl _, hu⟩
  | complete buf acts =>
    simp only [step] at h
    split at h
    · rename_i f _
      split at h
      · unfold onSyncData at h
        simp only at h
        have hsh : Shrunk s (s.stopFetcher.deletePending f.name) :=
          ((Shrunk.refl s).congr rfl rfl rfl : Shrunk s s.stopFetcher).delete _
        have hfl : flow (s.stopFetcher.deletePending f.name) ≤ flow s := deletePending_flow s.stopFetcher f.name
        have hun : Unanswered (s.stopFetcher.deletePending f.name) := hu.congr rfl rfl
        split at h
        · cases h; exact ⟨hfl, hun⟩
        · simp only [Res.bind_eq_ok] at h
          obtain ⟨r, h1, h2⟩ := h
          split at h2
          · cases h2; exact ⟨hfl, hun⟩
          · simp only [Res.bind_eq_ok] at h2
            obtain ⟨s1, h3, h4⟩ := h2
            generalize hx : (({ s.stopFetcher.deletePending f.name with base := r.2 } : Full).emit (.update r.1)) = x at h3
            have hx1 : Shrunk s x := by rw [← hx]; exact hsh.congr rfl rfl rfl
            have hx2 : flow x = flow (s.stopFetcher.deletePending f.name) := by
              rw [← hx]
              apply flow_congr
              · unfold sent emit; rw [dataOf_append]; simp [dataOf]
              · rfl
              · rfl
            have hx3 : Unanswered x := by rw [← hx]; exact hun.congr rfl rfl
            have hxl := hx1.lists hl
            obtain ⟨k1, k2⟩ := calls_flow hxl (hx1.notBoth ha) hx3 h3
            have hl1 := (calls_shrunk h3).lists hxl
            obtain ⟨j1, j2⟩ := processWaiting_flow (s := { s1 with
              sched := some (s1.now + cfg.jitter s1.draws, .renew)
              draws := s1.draws + 1
              waitOut := false }) ⟨hl1.psorted, hl1.sorted, hl1.tries, hl1.len, hl1.plen⟩ k2 h4
            have j3 : flow s' ≤ flow s1 := j1
            exact ⟨by omega, j2⟩
      · cases h; exact ⟨Nat.le_refl _, hu⟩
    · cases h; exact ⟨Nat.le_refl _, hu⟩
  | error t =>
    simp only [step] at h
    split at h
    · split at h
      · cases h
        split <;> exact ⟨Nat.le_refl _, hu⟩
      · cases h; exact ⟨Nat.le_refl _, hu⟩
    · cases h; exact ⟨Nat.le_refl _, hu⟩
  | tick t =>
    simp only [step, Res.ok.injEq] at h
    subst h
    split <;> exact ⟨Nat.le_refl _, hu⟩
  | fireSync =>
    simp only [step] at h
    split at h
    · split at h
      · split at h
        · have hc := sendSyncInterest_core h
          obtain ⟨h1, h2⟩ := sendSyncInterest_sent h
          exact ⟨(flow_congr (s := s) h1 hc.pending hc.waiting).le, hu.congr hc.waiting h2⟩
        · have hc := sendSyncInterest_core h
          obtain ⟨h1, h2⟩ := sendSyncInterest_sent h
          exact ⟨(flow_congr (s := s) h1 hc.pending hc.waiting).le, hu.congr hc.waiting h2⟩
      · cases h; exact ⟨Nat.le_refl _, hu⟩
    · cases h; exact ⟨Nat.le_refl _, hu⟩
  | fireDelay =>
    simp only [step] at h
    split at h
    · split at h
      · simp only [Res.bind_eq_ok, Res.ok.injEq] at h
        obtain ⟨s1, h1, rfl⟩ := h
        obtain ⟨j1, j2⟩ := processWaiting_flow (s := { s with delayTimer := none })
          ⟨hl.psorted, hl.sorted, hl.tries, hl.len, hl.plen⟩ hu h1
        rw [scheduleProcess_eq]
        exact ⟨j1, j2⟩
      · cases h; exact ⟨Nat.le_refl _, hu⟩
    · cases h; exact ⟨Nat.le_refl _, hu⟩
  | expire n =>
    simp only [step] at h
    split at h
    · cases h
      split
      · exact ⟨deletePending_flow s n, hu⟩
      · exact ⟨Nat.le_refl _, hu⟩
    · cases h; exact ⟨Nat.le_refl _, hu⟩
  | fireStore =>
    simp only [step, Res.ok.injEq] at h
    subst h
    exact ⟨Nat.le_refl _, fire_unanswered hu⟩

/-- A run in which no Interest is ever both parked and delayed. -/
theorem run_flow {cfg : Cfg} (ops : List Op) : ∀ {s s' : Full}, Lists cfg s → Unanswered s →
    (∀ pre s1, pre <+: ops → run cfg s pre = .ok s1 → NotBoth s1) → run cfg s ops = .ok s' →
    flow s' ≤ flow s + ops.countP (fullAccepts cfg) := by
  induction ops with
  | nil =>
    intro s s' _ _ _ h
    simp only [run, foldRes, Res.ok.injEq] at h
    subst h
    exact Nat.le_add_right _ _
  | cons op ops ih =>
    intro s s' hl hu ha h
    simp only [run, foldRes, Res.bind_eq_ok] at h
    obtain ⟨s1, h1, h2⟩ := h
    have h0 := ha [] s (List.nil_prefix) rfl
    obtain ⟨k1, k2⟩ := step_flow hl h0 hu h1
    have := ih ((step_lists hl h1).lists hl) k2 (fun pre s2 hp h3 => ha (op :: pre) s2 (List.cons_prefix_cons.2 ⟨rfl, hp⟩)
      (by simp only [run, foldRes, Res.bind_eq_ok]; exact ⟨s1, h1, h3⟩)) h2
    rw [List.countP_cons]
    omega

/-! Runs in which all Interests have different names -/

theorem onSyncInterest_notBoth {cfg : Cfg} {s s' : Full} {i : Interest} {t : Bool} (hn : NotBoth s)
    (hp : s.pending.find i.name = none) (hw : t = false → s.waiting.find i.name = none)
    (h : onSyncInterest cfg s i t = .ok s') : NotBoth s' := by
  have hh := onSyncInterest_handled h
  intro n e w he hwn
  by_cases hne : n = i.name
  · subst hne
    cases onSyncInterest_effect h with
    | nothing h1 h2 h3 h4 => rw [h2, hp] at he; cases he
    | waits h0 h0' h1 h2 h3 h4 => rw [h2, hp] at he; cases he
    | marks h1 h2 h3 h4 => rw [h2, hp] at he; cases he
    | parks e h1 h2 h3 h4 =>
      rw [h3] at hwn
      split at hwn
      · exact marked hwn
      · rename_i ht
        rw [hw (by simpa using ht)] at hwn; cases hwn
    | replies h1 h2 h3 h4 => rw [h3] at hwn; exact marked hwn
    | old d h1 h2 h3 h4 h5 => rw [h2, hp] at he; cases he
  · rw [hh.other n hne] at hwn
    rcases hh.park n e he with h1 | ⟨h1, _⟩
    · exact hn n e w h1 hwn
    · exact absurd h1 hne

theorem erase_notBoth {s : Full} (hn : NotBoth s) (k : Name) : NotBoth { s with waiting := s.waiting.erase k } := by
  intro n e w he hw
  simp only [NMap.find_erase] at hw
  split at hw
  · cases hw
  · exact hn n e w he hw

theorem processOne_notBoth {cfg : Cfg} {s s' : Full} {n : Name} (hn : NotBoth s) (h : processOne cfg s n = .ok s') :
    NotBoth s' := by
  unfold processOne at h
  cases hw : s.waiting.find n with
  | none =>
    simp only [hw, Res.ok.injEq] at h
    subst h
    exact hn
  | some w =>
    simp only [hw] at h
    split at h
    · cases h; exact erase_notBoth hn n
    · rename_i hmax
      simp only [Res.bind_eq_ok] at h
      obtain ⟨s1, h1, h2⟩ := h
      have hp : s.pending.find n = none := by
        cases hp : s.pending.find n with
        | none => rfl
        | some e => exact absurd (hn n e w hp hw) hmax
      have hn1 : NotBoth s1 := by
        refine onSyncInterest_notBoth ?_ hp (fun h => by cases h) h1
        intro k e w' he hk
        simp only [NMap.find_set] at hk
        split at hk
        · rename_i e1; subst e1; simp only at he; rw [hp] at he; cases he
        · exact hn k e w' he hk
      cases hw2 : s1.waiting.find n with
      | none => simp only [hw2, Res.ok.injEq] at h2; subst h2; exact hn1
      | some w2 =>
        simp only [hw2] at h2
        split at h2
        · cases h2; exact erase_notBoth hn1 n
        · cases h2; exact hn1

theorem processWaiting_notBoth {cfg : Cfg} {s s' : Full} (hn : NotBoth s) (h : processWaiting cfg s = .ok s') :
    NotBoth s' :=
  foldRes_inv (P := fun a : Full => NotBoth a) _ (fun _ _ _ _ ha h => processOne_notBoth ha h) hn h

theorem NotBoth.congr {s s' : Full} (hn : NotBoth s) (hp : s'.pending = s.pending) (hw : s'.waiting = s.waiting) : NotBoth s' := by
  unfold NotBoth; rw [hp, hw]; exact hn

/-- Only an Interest that is already there can become both. -/
theorem step_notBoth {cfg : Cfg} {s s' : Full} {op : Op} (hl : Lists cfg s) (hn : NotBoth s)
    (hnew : ∀ i, op = .recvInterest i → fullAccepts cfg op = true → s.pending.find i.name = none ∧ s.waiting.find i.name = none)
    (h : step cfg s op = .ok s') : NotBoth s' := by
  cases op with
  | recvInterest i =>
    simp only [step] at h
    split at h
    · rename_i hp
      obtain ⟨h1, h2⟩ := hnew i rfl hp
      exact onSyncInterest_notBoth hn h1 (fun _ => h2) h
    · cases h; exact hn
  | complete buf acts =>
    simp only [step] at h
    split at h
    · rename_i f _
      split at h
      · unfold onSyncData at h
        simp only at h
        have hsh : Shrunk s (s.stopFetcher.deletePending f.name) :=
          ((Shrunk.refl s).congr rfl rfl rfl : Shrunk s s.stopFetcher).delete _
        have h0 := hsh.notBoth hn
        split at h
        · cases h; exact h0
        · simp only [Res.bind_eq_ok] at h
          obtain ⟨r, h1, h2⟩ := h
          split at h2
          · cases h2; exact h0
          · simp only [Res.bind_eq_ok] at h2
            obtain ⟨s1, h3, h4⟩ := h2
            have h5 := (calls_shrunk h3).notBoth (NotBoth.congr h0 rfl rfl)
            refine processWaiting_notBoth ?_ h4
            exact NotBoth.congr h5 rfl rfl
      · cases h; exact hn
    · cases h; exact hn
  | fireDelay =>
    simp only [step] at h
    split at h
    · split at h
      · simp only [Res.bind_eq_ok, Res.ok.injEq] at h
        obtain ⟨s1, h1, rfl⟩ := h
        rw [scheduleProcess_eq]
        exact NotBoth.congr (processWaiting_notBoth (s := { s with delayTimer := none }) hn h1) rfl rfl
      · cases h; exact hn
    · cases h; exact hn
  | tick t =>
    simp only [step, Res.ok.injEq] at h
    subst h
    split <;> exact hn
  | _ =>
    cases step_lists hl h with
    | shrink hs => exact hs.notBoth hn
    | time t hop => cases hop
    | interest i hop => cases hop
    | retry s1 hop => rcases hop with hop | ⟨_, _, hop⟩ <;> cases hop

/-- Parked and delayed Interests have been received. -/
def OnlyAsked (s : Full) (ns : List Name) : Prop :=
  (∀ n e, s.pending.find n = some e → n ∈ ns) ∧ (∀ n w, s.waiting.find n = some w → n ∈ ns)

theorem step_onlyAsked {cfg : Cfg} {s s' : Full} {op : Op} {ns : List Name} (hl : Lists cfg s) (hk : OnlyAsked s ns)
    (h : step cfg s op = .ok s') : OnlyAsked s' (ns ++ (acceptedName cfg op).toList) := by
  have hmono : OnlyAsked s' ns → OnlyAsked s' (ns ++ (acceptedName cfg op).toList) := fun h0 =>
    ⟨fun n e he => List.mem_append_left _ (h0.1 n e he), fun n e he => List.mem_append_left _ (h0.2 n e he)⟩
  cases step_lists hl h with
  | shrink hs => exact hmono ⟨fun n e he => hk.1 n e (hs.park n e he), by rw [hs.waiting]; exact hk.2⟩
  | time t _ _ _ h1 => subst h1; exact hmono hk
  | retry s1 _ hs p =>
    refine hmono ⟨?_, ?_⟩
    · intro n e he
      rcases p.park n e he with h1 | ⟨h1, _⟩
      · exact hk.1 n e (hs.park n e h1)
      · rw [NMap.mem_keys, Option.isSome_iff_exists, hs.waiting] at h1
        obtain ⟨w, hw⟩ := h1
        exact hk.2 n w hw
    · intro n w hw
      by_cases hm : n ∈ s1.waiting.keys
      · rw [NMap.mem_keys, Option.isSome_iff_exists, hs.waiting] at hm
        obtain ⟨w, hw⟩ := hm
        exact hk.2 n w hw
      · rw [p.other n hm, hs.waiting] at hw
        exact hk.2 n w hw
  | interest i hop hh _ _ =>
    subst hop
    by_cases ha : cfg.syncPrefix.isPrefixOf i.name = true
    · have hin : i.name ∈ ns ++ (acceptedName cfg (.recvInterest i)).toList := by
        simp [acceptedName, ha]
      constructor
      · intro n e he
        rcases hh.park n e he with h1 | ⟨rfl, _⟩
        · exact List.mem_append_left _ (hk.1 n e h1)
        · exact hin
      · intro n w hw
        by_cases hn : n = i.name
        · subst hn; exact hin
        · rw [hh.other n hn] at hw
          exact List.mem_append_left _ (hk.2 n w hw)
    · simp only [step, if_neg ha, Res.ok.injEq] at h
      subst h
      exact hmono hk

/-- If all Interests have different names, none is ever both parked and delayed. -/
theorem run_notBoth {cfg : Cfg} (ops : List Op) : ∀ {s s' : Full} {ns : List Name}, Lists cfg s → NotBoth s → OnlyAsked s ns →
    (ns ++ ops.filterMap (acceptedName cfg)).Nodup → run cfg s ops = .ok s' → NotBoth s' := by
  induction ops with
  | nil =>
    intro s s' ns _ hn _ _ h
    simp only [run, foldRes, Res.ok.injEq] at h
    subst h
    exact hn
  | cons op ops ih =>
    intro s s' ns hl hn hk hnd h
    simp only [run, foldRes, Res.bind_eq_ok] at h
    obtain ⟨s1, h1, h2⟩ := h
    have hk1 := step_onlyAsked hl hk h1
    have hnd1 : (ns ++ (acceptedName cfg op).toList ++ ops.filterMap (acceptedName cfg)).Nodup := by
      rw [List.append_assoc]
      rw [List.filterMap_cons] at hnd
      cases ha : acceptedName cfg op with
      | none => rw [ha] at hnd; simpa using hnd
      | some x => rw [ha] at hnd; simpa using hnd
    refine ih ((step_lists hl h1).lists hl) (step_notBoth hl hn ?_ h1) hk1 hnd1 h2
    rintro i rfl ha
    have hi : acceptedName cfg (.recvInterest i) = some i.name := by
      exact if_pos ha
    rw [hi] at hnd1
    have hni : i.name ∉ ns := by
      intro hin
      have := (List.nodup_append.1 (List.nodup_append.1 hnd1).1).2.2 i.name hin i.name (by simp)
      exact this rfl
    constructor
    · cases hf : s.pending.find i.name with
      | none => rfl
      | some e => exact absurd (hk.1 _ e hf) hni
    · cases hf : s.waiting.find i.name with
      | none => rfl
      | some e => exact absurd (hk.2 _ e hf) hni

end Full

namespace Part

/-- The potential: packets put and Interests parked. -/
def flow (s : Part) : Nat := (dataOf s.log).length + s.pending.length

theorem flow_put {s : Part} {p : SegPub} {rs : List (Name × Bytes × Nat)} {ds : List Data} (h : ds.length ≤ 1) :
    flow { s with pub := p, replies := rs, log := s.log ++ ds.map Out.data } ≤ flow s + 1 := by
  unfold flow
  simp only [dataOf_append, dataOf_map, List.length_append]
  omega

theorem flow_emit (s : Part) (d : Data) : flow (s.emit (.data d)) = flow s + 1 := by
  unfold flow emit
  simp only [dataOf_append, List.length_append, dataOf, List.length_cons, List.length_nil]
  omega

theorem onHelloInterest_flow {cfg : Cfg} {s s' : Part} {i : Interest} (h : onHelloInterest cfg s i = .ok s') :
    flow s' ≤ flow s + 1 := by
  unfold onHelloInterest at h
  split at h
  · cases h; exact (flow_emit _ _).le
  · simp only [Res.bind_eq_ok] at h
    obtain ⟨l, _, c4, _, h⟩ := h
    split at h
    · cases h; exact Nat.le_succ _
    · simp only [Res.bind_eq_ok] at h
      obtain ⟨c, _, h⟩ := h
      obtain ⟨r, hr, rfl⟩ := publish_ok h
      exact flow_put (Full.publish_grown hr).2

theorem onSyncInterest_flow {cfg : Cfg} {s s' : Part} {i : Interest} (hs : Parked cfg s)
    (hp : (cfg.syncPrefix ++ [SYNC]) <+: i.name) (h : onSyncInterest cfg s i = .ok s') : flow s' ≤ flow s + 1 := by
  rcases onSyncInterest_cases' hp h with ⟨d, _, rfl⟩ | ⟨_, rfl | ⟨key, bf, iblt, hf, _, h1⟩⟩
  · exact (flow_emit _ _).le
  · exact Nat.le_succ _
  · obtain ⟨diff, _, ⟨_, d, _, rfl⟩ | ⟨_, content, _, ⟨_, c, r, _, hr, rfl⟩ | ⟨_, _, rfl⟩⟩⟩ := onSyncParsed_ok h1
    · exact (flow_emit _ _).le
    · exact flow_put (Full.publish_grown hr).2
    · unfold flow
      simp only [NMap.length_set hs.sorted]
      have := NMap.length_erase_le s.pending key
      omega

theorem satisfyLoop_flow {cfg : Cfg} {p : Name} (es : List (Name × PPending)) : ∀ {s s' : Part}, NMap.Sorted s.pending →
    (es.map Prod.fst).Nodup → (∀ e ∈ es, e ∈ s.pending) → foldRes (satisfyOne cfg p) s es = .ok s' → flow s' ≤ flow s := by
  induction es with
  | nil =>
    intro s s' _ _ _ h
    simp only [foldRes, Res.ok.injEq] at h
    subst h
    exact Nat.le_refl _
  | cons e es ih =>
    intro s s' hsort hnd hmem h
    simp only [foldRes, Res.bind_eq_ok] at h
    obtain ⟨s1, h1, h2⟩ := h
    rw [List.map_cons, List.nodup_cons] at hnd
    obtain ⟨n, e⟩ := e
    have hlen := (NMap.find_perm hsort (NMap.find_of_mem hsort (hmem (n, e) (by simp)))).length_eq
    rw [List.length_cons] at hlen
    have hmem' : ∀ y ∈ es, y ∈ s.pending.erase n := by
      intro y hy
      refine List.mem_filter.2 ⟨hmem y (List.mem_cons_of_mem _ hy), ?_⟩
      rw [decide_eq_true_eq]
      intro hye
      exact hnd.1 (List.mem_map.2 ⟨y, hy, hye⟩)
    have hser := NMap.sorted_erase hsort n
    obtain ⟨diff, hd, ⟨hc, rfl⟩ | ⟨hc, sub, hsub, ⟨rfl, c, r, h3, h4, rfl⟩ | ⟨rfl, hth, c, r, h3, h4, rfl⟩ | ⟨rfl, hth, rfl⟩⟩⟩ := satisfyOne_ok h1
    · refine (ih hser hnd.2 hmem' h2).trans ?_
      unfold flow
      simp only
      omega
    · refine (ih hser hnd.2 hmem' h2).trans ?_
      have := (Full.publish_grown h4).2
      unfold flow
      simp only [dataOf_append, dataOf_map, List.length_append]
      omega
    · refine (ih hser hnd.2 hmem' h2).trans ?_
      have := (Full.publish_grown h4).2
      unfold flow
      simp only [dataOf_append, dataOf_map, List.length_append]
      omega
    · exact ih hsort hnd.2 (fun y hy => hmem y (List.mem_cons_of_mem _ hy)) h2

theorem step_flow {cfg : Cfg} {s s' : Part} {op : Op} (hs : Parked cfg s) (h : step cfg s op = .ok s') :
    flow s' ≤ flow s + (if partAccepts cfg op then 1 else 0) := by
  cases op with
  | addUserNode p => simp only [step, Res.ok.injEq] at h; subst h; exact Nat.le_add_right _ _
  | removeUserNode p =>
    simp only [step, Res.bind_eq_ok, Res.ok.injEq] at h
    obtain ⟨b, h1, rfl⟩ := h
    exact Nat.le_add_right _ _
  | publishName p q =>
    simp only [step] at h
    rcases publishName_ok h with ⟨_, rfl⟩ | ⟨cur, b, _, _, h2, _⟩
    · exact Nat.le_add_right _ _
    · exact satisfyLoop_flow (s := { s with base := b, made := s.made ++ [(p, Full.newSeq q cur)] }) s.pending hs.sorted
        (NMap.keys_nodup hs.sorted) (fun _ h => h) h2
  | recvInterest i =>
    simp only [step] at h
    split at h
    · rename_i hh
      simp only [partAccepts, hh, Bool.true_or, if_true]
      exact onHelloInterest_flow h
    · split at h
      · rename_i hh
        simp only [partAccepts, hh, Bool.or_true, if_true]
        rw [List.isPrefixOf_iff_prefix] at hh
        exact onSyncInterest_flow hs hh h
      · cases h; exact Nat.le_add_right _ _
  | tick t =>
    simp only [step, Res.ok.injEq] at h
    subst h
    split <;> exact Nat.le_add_right _ _
  | expire n =>
    simp only [step] at h
    split at h
    · rename_i e he
      split at h
      · split at h
        · cases h
          have h1 := (NMap.find_perm hs.sorted he).length_eq
          have h2 := NMap.length_set hs.sorted n { e with timer := none }
          have h3 := NMap.length_erase_le (s.pending.set n { e with timer := none }) e.expKey
          rw [List.length_cons] at h1
          unfold flow
          simp only
          omega
        · cases h; exact Nat.le_add_right _ _
      · cases h; exact Nat.le_add_right _ _
    · cases h; exact Nat.le_add_right _ _
  | fireStore => simp only [step, Res.ok.injEq] at h; subst h; exact Nat.le_add_right _ _

theorem run_flow {cfg : Cfg} (ops : List Op) : ∀ {s s' : Part}, Parked cfg s → run cfg s ops = .ok s' →
    flow s' ≤ flow s + ops.countP (partAccepts cfg) := by
  induction ops with
  | nil =>
    intro s s' _ h
    simp only [run, foldRes, Res.ok.injEq] at h
    subst h
    exact Nat.le_add_right _ _
  | cons op ops ih =>
    intro s s' hs h
    simp only [run, foldRes, Res.bind_eq_ok] at h
    obtain ⟨s1, h1, h2⟩ := h
    have k1 := step_flow hs h1
    have := ih (step_parked hs h1) h2
    rw [List.countP_cons]
    omega

end Part
end PSync
