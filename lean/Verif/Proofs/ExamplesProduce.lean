import Mathlib.Data.List.Nodup
import Mathlib.Data.List.Range
import Verif.Spec.Examples
import Verif.Proofs.Full
import Verif.Proofs.Partial
import Verif.Proofs.Examples
/-!
What the two example producers publish.
-/
namespace PSync
open Spec

theorem takeDueName_count {now : Nat} {ts ts' : List (Nat × Name)} {p : Name} (h : takeDueName now ts = some (p, ts')) (q : Name) :
    scheduled q ts = scheduled q ts' + if p = q then 1 else 0 := by
  induction ts generalizing ts' with
  | nil => cases h
  | cons x ts ih =>
    obtain ⟨d, r⟩ := x
    simp only [takeDueName] at h
    split at h
    · cases h
      simp [scheduled, List.count_cons]
    · cases h1 : takeDueName now ts with
      | none => rw [h1] at h; cases h
      | some y =>
        obtain ⟨p', ts1⟩ := y
        rw [h1] at h
        cases h
        have := ih h1
        simp only [scheduled, List.map_cons, List.count_cons] at this ⊢
        omega

theorem scheduled_append (p q : Name) (d : Nat) (ts : List (Nat × Name)) :
    scheduled q (ts ++ [(d, p)]) = scheduled q ts + if p = q then 1 else 0 := by
  simp [scheduled, List.count_cons]

theorem printedFor_snoc (p q : Name) (n : Nat) (l : List (Name × Nat)) :
    printedFor q (l ++ [(p, n)]) = printedFor q l ++ if p = q then [n] else [] := by
  unfold printedFor
  by_cases h : p = q <;> simp [h]

theorem PubAppCfg.limit_lt (cfg : PubAppCfg) : cfg.limit < U64 := by
  unfold PubAppCfg.limit U64
  omega

theorem PubAppCfg.limit_eq {cfg : PubAppCfg} (h0 : 0 ≤ cfg.maxPublish) (h1 : cfg.maxPublish < 2 ^ 64) :
    cfg.limit = cfg.maxPublish.toNat := by
  unfold PubAppCfg.limit
  omega

theorem upTo_succ (k : Nat) : upTo 1 (k + 1) = upTo 1 k ++ [k + 1] := by
  unfold upTo
  rw [show k + 1 + 1 - 1 = k + 1 from rfl, show k + 1 - 1 = k from rfl, List.range'_concat]
  simp [Nat.add_comm]

/-- Numbers that increase and lie in 1..n are at most n. -/
theorem length_le_of_increasing {l : List Nat} {n : Nat} (h1 : l.Pairwise (· < ·)) (h2 : ∀ x ∈ l, 1 ≤ x ∧ x ≤ n) : l.length ≤ n := by
  have hnd : l.Nodup := h1.imp (fun h => Nat.ne_of_lt h)
  have hs : l ⊆ List.range' 1 n := fun x hx => by
    have := h2 x hx
    rw [List.mem_range'_1]; omega
  have := (hnd.subperm hs).length_le
  simpa using this

namespace PartApp

/-- What holds of a stream that has been added. -/
def Inv (L : Nat) (a : PartApp) (p : Name) : Prop :=
  ∃ k, a.prod.base.getSeqNo p = some k ∧ printedFor p a.published = upTo 1 k ∧
    ((scheduled p a.timers = 1 ∧ (k < L ∨ k = 0)) ∨ (scheduled p a.timers = 0 ∧ k = max 1 L))

theorem init_inv_aux {cfg : PubAppCfg} (l : List Name) : ∀ {done : List Name} {a a' : PartApp}, (done ++ l).Nodup →
    a.published = [] → (∀ p ∈ done, a.prod.base.getSeqNo p = some 0 ∧ scheduled p a.timers = 1) →
    (∀ p, p ∉ done → a.prod.base.getSeqNo p = none ∧ scheduled p a.timers = 0) → foldRes (addStream cfg) a l = .ok a' →
    a'.published = [] ∧ ∀ p ∈ done ++ l, a'.prod.base.getSeqNo p = some 0 ∧ scheduled p a'.timers = 1 := by
  induction l with
  | nil =>
    intro done a a' _ hp h1 _ h
    cases h
    exact ⟨hp, by simpa using h1⟩
  | cons q l ih =>
    intro done a a' hnd hp h1 h2 h
    simp only [foldRes] at h
    rw [Res.bind_eq_ok] at h
    obtain ⟨a1, h3, h⟩ := h
    simp only [addStream, Part.step, Res.ok_bind] at h3
    cases h3
    have hq : q ∉ done := fun hc => by
      have := (List.nodup_append.1 hnd).2.2 q hc q (by simp)
      exact this rfl
    have := ih (done := done ++ [q]) (by simpa using hnd) ?_ ?_ ?_ h
    · simpa using this
    · exact hp
    · intro p hp
      simp only [schedule, Base.getSeqNo, scheduled_append]
      rw [Base.find_addUserNode]
      rcases List.mem_append.1 hp with hp | hp
      · have hne : q ≠ p := fun hc => hq (hc ▸ hp)
        rw [if_neg hne, if_neg hne]
        exact h1 p hp
      · simp only [List.mem_singleton] at hp
        subst hp
        have := h2 p hq
        simp only [Base.getSeqNo] at this
        simp [this.1, this.2]
    · intro p hp
      simp only [List.mem_append, List.mem_singleton, not_or] at hp
      have hne : q ≠ p := fun hc => hp.2 hc.symm
      simp only [schedule, Base.getSeqNo, scheduled_append]
      rw [Base.find_addUserNode, if_neg hne, if_neg hne]
      exact h2 p hp.1

theorem init_inv {cfg : PubAppCfg} (hi : cfg.streams.Nodup) {a : PartApp} (h : init cfg = .ok a) :
    ∀ p ∈ cfg.streams, Inv cfg.limit a p := by
  have := init_inv_aux cfg.streams (done := []) (by simpa using hi) rfl (by simp)
    (fun p _ => ⟨rfl, rfl⟩) h
  intro p hp
  have h1 := this.2 p (by simpa using hp)
  exact ⟨0, h1.1, by rw [this.1]; rfl, Or.inl ⟨h1.2, Or.inr rfl⟩⟩

/-- Events from outside leave the table alone. -/
theorem outside_base {cfg : Cfg} {s s' : Part} {op : Part.Op} (ho : outside op = true) (h : Part.step cfg s op = .ok s') :
    s'.base = s.base := by
  cases op with
  | addUserNode p => cases ho
  | removeUserNode p => cases ho
  | publishName p q => cases ho
  | recvInterest i =>
    simp only [Part.step] at h
    split at h
    · exact Part.onHelloInterest_base h
    · split at h
      · exact Part.onSyncInterest_base h
      · cases h; rfl
  | tick t =>
    simp only [Part.step] at h
    cases h
    split <;> rfl
  | expire n =>
    simp only [Part.step] at h
    split at h
    · split at h
      · split at h <;> cases h <;> rfl
      · cases h; rfl
    · cases h; rfl
  | fireStore =>
    simp only [Part.step] at h
    cases h; rfl

/-- A publication of a known stream. -/
theorem publish_seq {cfg : Cfg} {s s' : Part} {p : Name} {k : Nat} (hk : s.base.getSeqNo p = some k)
    (h : Part.step cfg s (.publishName p none) = .ok s') (r : Name) :
    s'.base.getSeqNo r = if p = r then some (max k ((k + 1) % U64)) else s.base.getSeqNo r := by
  simp only [Base.getSeqNo] at hk ⊢
  rcases Part.publishName_ok h with ⟨h1, _⟩ | ⟨cur, b, h1, h2, _, rfl⟩
  · rw [h1] at hk; cases hk
  · rw [h1] at hk
    cases hk
    rw [Base.find_updateSeqNo h2, h1]
    rfl

theorem doUpdate_ok {cfg : PubAppCfg} {a : PartApp} {p : Name} {s : Part} {k : Nat} (hk : a.prod.base.getSeqNo p = some k)
    (h : Part.step cfg.pc a.prod (.publishName p none) = .ok s) :
    doUpdate cfg a p = .ok (let b := { a with prod := s, published := a.published ++ [(p, max k ((k + 1) % U64))] }
      if max k ((k + 1) % U64) < cfg.limit then schedule cfg b p else b) := by
  unfold doUpdate
  rw [h, Res.ok_bind, publish_seq hk h p, if_pos rfl]

theorem doUpdate_inv {cfg : PubAppCfg} {a a' : PartApp} {p : Name} {ts : List (Nat × Name)} {now : Nat}
    (ht : takeDueName now a.timers = some (p, ts)) (hall : ∀ q ∈ cfg.streams, Inv cfg.limit a q) (hp : p ∈ cfg.streams)
    (h : doUpdate cfg { a with timers := ts } p = .ok a') : ∀ q ∈ cfg.streams, Inv cfg.limit a' q := by
  obtain ⟨k, hk, hpr, hor⟩ := hall p hp
  have hL := cfg.limit_lt
  have hc := takeDueName_count ht
  have hcp := hc p
  rw [if_pos rfl] at hcp
  have hkL : k < cfg.limit ∨ k = 0 := by
    rcases hor with h1 | h1
    · exact h1.2
    · omega
  have hs0 : scheduled p ts = 0 := by
    rcases hor with h1 | h1
    · omega
    · omega
  have hU : (1 : Nat) < U64 := by decide
  have hk1 : max k ((k + 1) % U64) = k + 1 := by
    rw [Nat.mod_eq_of_lt (by omega)]; omega
  have h0 := h
  unfold doUpdate at h0
  rw [Res.bind_eq_ok] at h0
  obtain ⟨s, hs, _⟩ := h0
  rw [doUpdate_ok (a := { a with timers := ts }) hk hs, hk1] at h
  simp only [Res.ok.injEq] at h
  have hseq := publish_seq (s := a.prod) hk hs
  intro q hq
  by_cases hpq : p = q
  · subst hpq
    have h3 := hseq p
    rw [if_pos rfl, hk1] at h3
    have h4 : printedFor p (a.published ++ [(p, k + 1)]) = upTo 1 (k + 1) := by
      rw [printedFor_snoc, if_pos rfl, hpr, upTo_succ]
    by_cases hlt : k + 1 < cfg.limit
    · rw [if_pos hlt] at h
      subst h
      refine ⟨k + 1, h3, h4, Or.inl ⟨?_, Or.inl hlt⟩⟩
      simp [schedule, scheduled_append, hs0]
    · rw [if_neg hlt] at h
      subst h
      exact ⟨k + 1, h3, h4, Or.inr ⟨hs0, by omega⟩⟩
  · obtain ⟨j, hj, hjp, hjo⟩ := hall q hq
    have h3 := hseq q
    rw [if_neg hpq] at h3
    have h4 : printedFor q (a.published ++ [(p, k + 1)]) = upTo 1 j := by
      rw [printedFor_snoc, if_neg hpq, List.append_nil, hjp]
    have h5 : scheduled q ts = scheduled q a.timers := by
      have := hc q
      rw [if_neg hpq] at this
      omega
    by_cases hlt : k + 1 < cfg.limit
    · rw [if_pos hlt] at h
      subst h
      refine ⟨j, h3.trans hj, h4, ?_⟩
      simpa [schedule, scheduled_append, hpq, h5] using hjo
    · rw [if_neg hlt] at h
      subst h
      refine ⟨j, h3.trans hj, h4, ?_⟩
      simpa [h5] using hjo

/-- Only streams are scheduled. -/
def OnlyStreams (cfg : PubAppCfg) (a : PartApp) : Prop := ∀ p, 0 < scheduled p a.timers → p ∈ cfg.streams

theorem init_only_aux {cfg : PubAppCfg} (l : List Name) : ∀ {a a' : PartApp}, (∀ p ∈ l, p ∈ cfg.streams) → OnlyStreams cfg a →
    foldRes (addStream cfg) a l = .ok a' → OnlyStreams cfg a' := by
  induction l with
  | nil => intro a a' _ h1 h; cases h; exact h1
  | cons q l ih =>
    intro a a' hl h1 h
    simp only [foldRes] at h
    rw [Res.bind_eq_ok] at h
    obtain ⟨a1, h3, h⟩ := h
    simp only [addStream, Part.step, Res.ok_bind] at h3
    cases h3
    refine ih (fun p hp => hl p (List.mem_cons_of_mem _ hp)) ?_ h
    intro p hp
    simp only [schedule, scheduled_append] at hp
    by_cases hqp : q = p
    · exact hl p (by simp [hqp])
    · rw [if_neg hqp] at hp
      exact h1 p hp

theorem reach_inv {cfg : PubAppCfg} (hi : cfg.streams.Nodup) {a : PartApp} (hr : PartAppReach cfg a) :
    (∀ p ∈ cfg.streams, Inv cfg.limit a p) ∧ OnlyStreams cfg a := by
  obtain ⟨a0, ops, h0, h⟩ := hr
  have hI : (∀ p ∈ cfg.streams, Inv cfg.limit a0 p) ∧ OnlyStreams cfg a0 :=
    ⟨init_inv hi h0, init_only_aux cfg.streams (fun _ h => h) (fun p hp => by simp [scheduled] at hp) h0⟩
  refine foldRes_inv (P := fun a => (∀ p ∈ cfg.streams, Inv cfg.limit a p) ∧ OnlyStreams cfg a) ops ?_ hI h
  rintro b op b' - ⟨hb, hob⟩ hs
  cases op with
  | prod op =>
    simp only [step] at hs
    split at hs
    · rename_i ho
      rw [Res.bind_eq_ok] at hs
      obtain ⟨s, hs, h2⟩ := hs
      cases h2
      refine ⟨fun p hp => ?_, hob⟩
      obtain ⟨k, hk, h3⟩ := hb p hp
      exact ⟨k, by rw [outside_base ho hs]; exact hk, h3⟩
    · cases hs; exact ⟨hb, hob⟩
  | update =>
    simp only [step] at hs
    split at hs
    · cases hs; exact ⟨hb, hob⟩
    · rename_i p ts ht
      have hc := takeDueName_count ht
      have hp : p ∈ cfg.streams := hob p (by have := hc p; rw [if_pos rfl] at this; omega)
      refine ⟨doUpdate_inv ht hb hp hs, ?_⟩
      intro q hq
      by_cases hpq : p = q
      · exact hpq ▸ hp
      · apply hob q
        have h1 := hc q
        rw [if_neg hpq] at h1
        unfold doUpdate at hs
        rw [Res.bind_eq_ok] at hs
        obtain ⟨s, _, hs⟩ := hs
        split at hs
        · cases hs
        · simp only [Res.ok.injEq] at hs
          subst hs
          split at hq
          · simp only [schedule, scheduled_append] at hq
            rw [if_neg hpq] at hq
            omega
          · simp only at hq
            omega

end PartApp

namespace FullApp

/-- What holds of a stream that has been added. -/
def Inv (L : Nat) (a : FullApp) (p : Name) : Prop :=
  ∃ k, a.prod.base.getSeqNo p = some k ∧ (printedFor p a.published).Pairwise (· < ·) ∧
    (∀ x ∈ printedFor p a.published, 1 ≤ x ∧ x ≤ k) ∧
    ((scheduled p a.timers = 1 ∧ ∀ x ∈ printedFor p a.published, x < L) ∨
     (scheduled p a.timers = 0 ∧ printedFor p a.published ≠ [] ∧ L ≤ k ∧ (printedFor p a.published).length ≤ max 1 L))

/-- Only streams are scheduled. -/
def OnlyStreams (cfg : PubAppCfg) (a : FullApp) : Prop := ∀ p, 0 < scheduled p a.timers → p ∈ cfg.streams

theorem produce_eq {cfg : PubAppCfg} {a a' : FullApp} {op : Full.Op} (h : produce cfg a op = .ok a') :
    Full.step cfg.pc a.prod op = .ok a'.prod ∧ a'.timers = a.timers ∧ a'.published = a.published ∧ a'.draws = a.draws := by
  unfold produce at h
  simp only [Res.bind_eq_ok] at h
  obtain ⟨s, h1, out, _, h⟩ := h
  cases h
  exact ⟨h1, rfl, rfl, rfl⟩

theorem init_inv_aux {cfg : PubAppCfg} (l : List Name) : ∀ {done : List Name} {a a' : FullApp}, (done ++ l).Nodup →
    a.published = [] → (∀ p ∈ done, (∃ k, a.prod.base.getSeqNo p = some k) ∧ scheduled p a.timers = 1) →
    (∀ p, p ∉ done → scheduled p a.timers = 0) → foldRes (addStream cfg) a l = .ok a' →
    a'.published = [] ∧ (∀ p ∈ done ++ l, (∃ k, a'.prod.base.getSeqNo p = some k) ∧ scheduled p a'.timers = 1) ∧
      ∀ p, p ∉ done ++ l → scheduled p a'.timers = 0 := by
  induction l with
  | nil =>
    intro done a a' _ hp h1 h2 h
    cases h
    exact ⟨hp, by simpa using h1, by simpa using h2⟩
  | cons q l ih =>
    intro done a a' hnd hp h1 h2 h
    simp only [foldRes] at h
    rw [Res.bind_eq_ok] at h
    obtain ⟨a1, h3, h⟩ := h
    simp only [addStream] at h3
    rw [Res.bind_eq_ok] at h3
    obtain ⟨a2, h3, h4⟩ := h3
    cases h4
    obtain ⟨h3, ht, hpub, _⟩ := produce_eq h3
    simp only [Full.step, Full.call] at h3
    have hb : a2.prod.base = (a.prod.base.addUserNode q).2 := by
      simp only [Res.ok.injEq] at h3; rw [← h3]
    have hq : q ∉ done := fun hc => by
      have := (List.nodup_append.1 hnd).2.2 q hc q (by simp)
      exact this rfl
    have := ih (done := done ++ [q]) (by simpa using hnd) ?_ ?_ ?_ h
    · simpa using this
    · exact hpub.trans hp
    · intro p hp
      simp only [schedule, Base.getSeqNo, scheduled_append, ht]
      rw [hb, Base.find_addUserNode]
      rcases List.mem_append.1 hp with hp | hp
      · have hne : q ≠ p := fun hc => hq (hc ▸ hp)
        rw [if_neg hne, if_neg hne]
        exact h1 p hp
      · simp only [List.mem_singleton] at hp
        subst hp
        simp [h2 p hq]
    · intro p hp
      simp only [List.mem_append, List.mem_singleton, not_or] at hp
      have hne : q ≠ p := fun hc => hp.2 hc.symm
      simp only [schedule, scheduled_append, ht]
      rw [if_neg hne]
      exact h2 p hp.1

theorem init_inv {cfg : PubAppCfg} (hi : cfg.streams.Nodup) {a : FullApp} (h : init cfg = .ok a) :
    (∀ p ∈ cfg.streams, Inv cfg.limit a p) ∧ OnlyStreams cfg a := by
  unfold init at h
  rw [Res.bind_eq_ok] at h
  obtain ⟨s, _, h⟩ := h
  have := init_inv_aux cfg.streams (done := []) (by simpa using hi) rfl (by simp)
    (fun p _ => rfl) h
  refine ⟨fun p hp => ?_, fun p hp => ?_⟩
  · obtain ⟨⟨k, hk⟩, h1⟩ := this.2.1 p (by simpa using hp)
    have h0 : printedFor p a.published = [] := by rw [this.1]; rfl
    exact ⟨k, hk, by simp [h0], by simp [h0], Or.inl ⟨h1, by simp [h0]⟩⟩
  · by_contra hc
    have := this.2.2 p (by simpa using hc)
    omega

/-- A stream stays as it is while its number grows. -/
theorem Inv.grow {L : Nat} {a a' : FullApp} {p : Name} (h : Inv L a p) (ht : a'.timers = a.timers)
    (hpub : a'.published = a.published)
    (hg : ∀ k, a.prod.base.getSeqNo p = some k → ∃ k', a'.prod.base.getSeqNo p = some k' ∧ k ≤ k') : Inv L a' p := by
  obtain ⟨k, hk, h1, h2, h3⟩ := h
  obtain ⟨k', hk', hle⟩ := hg k hk
  refine ⟨k', hk', by rw [hpub]; exact h1, fun x hx => ?_, ?_⟩
  · rw [hpub] at hx
    exact ⟨(h2 x hx).1, (h2 x hx).2.trans hle⟩
  · rw [ht, hpub]
    exact h3.imp id (fun h => ⟨h.1, h.2.1, h.2.2.1.trans hle, h.2.2.2⟩)

theorem outside_removes {op : Full.Op} (ho : outside op = true) (p : Name) : ¬ op.Removes p := by
  cases op <;> simp_all [outside, Full.Op.Removes]

theorem publish_seq {cfg : Cfg} {s s' : Full} {p : Name} {k : Nat} (hk : s.base.getSeqNo p = some k)
    (h : Full.step cfg s (.call (.publishName p none)) = .ok s') (r : Name) :
    s'.base.getSeqNo r = if p = r then some (max k ((k + 1) % U64)) else s.base.getSeqNo r := by
  simp only [Base.getSeqNo] at hk ⊢
  rcases Full.publishName_base h with ⟨h1, _⟩ | ⟨cur, h1, h2⟩
  · rw [h1] at hk; cases hk
  · rw [h1] at hk
    cases hk
    rw [Base.find_updateSeqNo h2, h1]
    rfl

theorem doUpdate_ok {cfg : PubAppCfg} {a b : FullApp} {p : Name} {k : Nat} (hk : a.prod.base.getSeqNo p = some k)
    (h : produce cfg a (.call (.publishName p none)) = .ok b) :
    doUpdate cfg a p = .ok (let c := { b with published := a.published ++ [(p, max k ((k + 1) % U64))] }
      if max k ((k + 1) % U64) < cfg.limit then schedule cfg c p else c) := by
  obtain ⟨h1, _, h3, _⟩ := produce_eq h
  unfold doUpdate
  rw [h, Res.ok_bind, publish_seq hk h1 p, if_pos rfl]
  simp only [h3]

/-- The next number is larger than all those below the limit. -/
theorem next_gt {k x L : Nat} (hL : L < U64) (h1 : x ≤ k) (h2 : x < L) : x < max k ((k + 1) % U64) := by
  by_cases h : k + 1 < U64
  · rw [Nat.mod_eq_of_lt h]; omega
  · omega

theorem next_pos (k : Nat) : 1 ≤ max k ((k + 1) % U64) := by
  by_cases h : k = 0
  · subst h; decide
  · omega

theorem doUpdate_inv {cfg : PubAppCfg} {a a' : FullApp} {p : Name} {ts : List (Nat × Name)} {now : Nat}
    (ht : takeDueName now a.timers = some (p, ts)) (hall : ∀ q ∈ cfg.streams, Inv cfg.limit a q) (hp : p ∈ cfg.streams)
    (h : doUpdate cfg { a with timers := ts } p = .ok a') : ∀ q ∈ cfg.streams, Inv cfg.limit a' q := by
  obtain ⟨k, hk, hpw, hin, hor⟩ := hall p hp
  have hL := cfg.limit_lt
  have hc := takeDueName_count ht
  have hcp := hc p
  rw [if_pos rfl] at hcp
  have hlt : ∀ x ∈ printedFor p a.published, x < cfg.limit := by
    rcases hor with h1 | h1
    · exact h1.2
    · omega
  have hs0 : scheduled p ts = 0 := by
    rcases hor with h1 | h1
    · omega
    · omega
  have h0 := h
  unfold doUpdate at h0
  rw [Res.bind_eq_ok] at h0
  obtain ⟨b, hb, _⟩ := h0
  rw [doUpdate_ok (a := { a with timers := ts }) hk hb] at h
  simp only [Res.ok.injEq] at h
  obtain ⟨hs, hbt, _, _⟩ := produce_eq hb
  simp only at hs hbt
  have hseq := publish_seq (s := a.prod) hk hs
  set v := max k ((k + 1) % U64) with hv
  have hkv : k ≤ v := by omega
  intro q hq
  by_cases hpq : p = q
  · subst hpq
    have h3 := hseq p
    rw [if_pos rfl] at h3
    have h4 : printedFor p (a.published ++ [(p, v)]) = printedFor p a.published ++ [v] := by
      rw [printedFor_snoc, if_pos rfl]
    have h5 : (printedFor p a.published ++ [v]).Pairwise (· < ·) := by
      rw [List.pairwise_append]
      refine ⟨hpw, by simp, fun x hx y hy => ?_⟩
      simp only [List.mem_singleton] at hy
      subst hy
      exact next_gt hL (hin x hx).2 (hlt x hx)
    have h6 : ∀ x ∈ printedFor p a.published ++ [v], 1 ≤ x ∧ x ≤ v := by
      intro x hx
      rcases List.mem_append.1 hx with hx | hx
      · exact ⟨(hin x hx).1, (hin x hx).2.trans hkv⟩
      · simp only [List.mem_singleton] at hx
        subst hx
        exact ⟨next_pos k, le_rfl⟩
    by_cases hvl : v < cfg.limit
    · rw [if_pos hvl] at h
      subst h
      refine ⟨v, h3, by simpa [schedule, h4] using h5, by simpa only [schedule, h4] using h6, Or.inl ⟨?_, ?_⟩⟩
      · simp [schedule, scheduled_append, hbt, hs0]
      · intro x hx
        simp only [schedule, h4] at hx
        exact lt_of_le_of_lt (h6 x hx).2 hvl
    · rw [if_neg hvl] at h
      subst h
      refine ⟨v, h3, by simpa [h4] using h5, by simpa only [h4] using h6, Or.inr ⟨by simp [hbt, hs0], by simp [h4], by omega, ?_⟩⟩
      have h7 : (printedFor p a.published).length ≤ cfg.limit - 1 :=
        length_le_of_increasing hpw (fun x hx => ⟨(hin x hx).1, by have := hlt x hx; omega⟩)
      simp only [h4, List.length_append, List.length_singleton]
      omega
  · have h3 := hseq q
    rw [if_neg hpq] at h3
    have h4 : printedFor q (a.published ++ [(p, v)]) = printedFor q a.published := by
      rw [printedFor_snoc, if_neg hpq, List.append_nil]
    have h5 : scheduled q ts = scheduled q a.timers := by
      have := hc q
      rw [if_neg hpq] at this
      omega
    obtain ⟨j, hj, hjo⟩ := hall q hq
    by_cases hvl : v < cfg.limit
    · rw [if_pos hvl] at h
      subst h
      refine ⟨j, h3.trans hj, ?_⟩
      simpa [schedule, scheduled_append, hpq, h5, h4, hbt] using hjo
    · rw [if_neg hvl] at h
      subst h
      refine ⟨j, h3.trans hj, ?_⟩
      simpa [h5, h4, hbt] using hjo

theorem reach_inv {cfg : PubAppCfg} (hi : cfg.streams.Nodup) {a : FullApp} (hr : FullAppReach cfg a) :
    (∀ p ∈ cfg.streams, Inv cfg.limit a p) ∧ OnlyStreams cfg a := by
  obtain ⟨a0, ops, h0, h⟩ := hr
  refine foldRes_inv (P := fun a => (∀ p ∈ cfg.streams, Inv cfg.limit a p) ∧ OnlyStreams cfg a) ops ?_ (init_inv hi h0) h
  rintro b op b' - ⟨hb, hob⟩ hs
  cases op with
  | prod op =>
    simp only [step] at hs
    split at hs
    · rename_i ho
      obtain ⟨h1, ht, hpub, _⟩ := produce_eq hs
      refine ⟨fun p hp => (hb p hp).grow ht hpub fun k hk => ?_, fun p hp => hob p (by rw [ht] at hp; exact hp)⟩
      exact (Full.step_steps h1).mono_seq (outside_removes ho p) hk
    · cases hs; exact ⟨hb, hob⟩
  | update =>
    simp only [step] at hs
    split at hs
    · cases hs; exact ⟨hb, hob⟩
    · rename_i p ts ht
      have hc := takeDueName_count ht
      have hp : p ∈ cfg.streams := hob p (by have := hc p; rw [if_pos rfl] at this; omega)
      refine ⟨doUpdate_inv ht hb hp hs, ?_⟩
      intro q hq
      by_cases hpq : p = q
      · exact hpq ▸ hp
      · apply hob q
        have h1 := hc q
        rw [if_neg hpq] at h1
        unfold doUpdate at hs
        rw [Res.bind_eq_ok] at hs
        obtain ⟨s, h2, hs⟩ := hs
        obtain ⟨_, h3, _, _⟩ := produce_eq h2
        split at hs
        · cases hs
        · simp only [Res.ok.injEq] at hs
          subst hs
          split at hq
          · simp only [schedule, scheduled_append, h3] at hq
            rw [if_neg hpq] at hq
            omega
          · simp only [h3] at hq
            omega

end FullApp
end PSync
