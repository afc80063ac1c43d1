import Verif.Props.Examples
import Verif.Props.Malformed
/-!
Property C62 for every hello reply: what the example consumer is subscribed to.
-/
namespace PSync
open Spec

namespace Cons

/-- Only addSubscription and removeSubscription change the subscriptions. -/
theorem micros_subs {cfg : CCfg} {C : Call → Prop} (hC : ∀ c, C c → c = .sendHello ∨ c = .sendSync ∨ c = .stop) {s s' : Cons}
    (h : CMicros cfg C s s') : s'.subs = s.subs := by
  induction h with
  | refl => rfl
  | tail _ h ih =>
    rw [← ih]
    cases h with
    | call c hc h =>
      rcases hC c hc with rfl | rfl | rfl
      · simp only [call, Res.ok.injEq] at h; subst h; rfl
      · simp only [call] at h
        unfold sendSyncInterest at h
        split at h
        · cases h
        · rw [Res.bind_eq_ok] at h
          obtain ⟨cs, _, h⟩ := h
          cases h
          rfl
      · simp only [call, Res.ok.injEq] at h; subst h; rfl
    | helloData names r ib h => rfl
    | syncData names r ib h => rfl
    | notify us => rfl
    | hello m => rfl
    | internal h1 h2 h3 h4 h5 => exact h3

/-- A prefix that is added becomes a subscription if the consumer has no number for it. -/
theorem adds_subs {cfg : CCfg} : ∀ {l : List (Name × Nat)} {s s' : Cons},
    foldRes (call cfg) s (l.map (fun x => Call.addSubscription x.1 x.2 true)) = .ok s' →
    ∀ p, (s'.subs.find p).isSome ↔ ((s.subs.find p).isSome ∨ (p ∈ l.map Prod.fst ∧ s.prefixes.find p = none))
  | [], s, s', h, p => by simp only [List.map_nil, foldRes, Res.ok.injEq] at h; subst h; simp
  | (p0, q) :: l, s, s', h, p => by
    simp only [List.map_cons, foldRes, call, Res.bind_eq_ok] at h
    obtain ⟨s1, ⟨⟨r, s2⟩, h1, h2⟩, h3⟩ := h
    simp only [Res.ok.injEq] at h2
    subst h2
    rw [adds_subs h3 p]
    rcases addSubscription_ok h1 with ⟨k1, _, rfl⟩ | ⟨k1, _, bf, _, k2, k3, _⟩
    · obtain ⟨x, hx⟩ := Option.isSome_iff_exists.mp k1
      simp only [List.map_cons, List.mem_cons]
      by_cases e : p = p0
      · subst e; simp [hx]
      · simp [e]
    · rw [k2, k3, NMap.find_set, NMap.find_set]
      simp only [List.map_cons, List.mem_cons]
      by_cases e : p0 = p
      · subst e; simp [k1]
      · have e' : ¬ p = p0 := fun h => e h.symm
        simp [e, e']

/-- A hello content gives numbers to no further prefix. -/
theorem hello_known {subs : NMap Unit} {names : List Name} {a r : NMap Nat × List MissingDataInfo × NMap Nat}
    (h : foldRes (helloStep subs) a names = .ok r) (hk : ∀ p, (subs.find p).isSome → (a.1.find p).isSome) :
    ∀ p, (r.1.find p).isSome ↔ (a.1.find p).isSome := by
  refine foldRes_inv (P := fun r : NMap Nat × List MissingDataInfo × NMap Nat => ∀ p, (r.1.find p).isSome ↔ (a.1.find p).isSome) names
    (fun b n b' _ hP hst => ?_) (fun _ => Iff.rfl) h
  obtain ⟨p, q, _, _, _, ⟨c, _, hc, _, h, _⟩ | ⟨_, h, _⟩⟩ := helloStep_ok (fun p hp => (hP p).mpr (hk p hp)) hst
  all_goals rw [h]
  · intro p'
    rw [← hP p', NMap.find_set]
    split
    · rename_i e; subst e; simp [hc]
    · rfl
  · exact hP

end Cons

open ConsApp in
/-- C62 for every hello callback, the first or a later one: the application picks as many prefixes out of the reply as it
was told to subscribe to, and is subscribed afterwards to those it was subscribed to before and to
those picked that it had no number for. -/
theorem c62_every_hello_partial (cfg : ConsAppCfg) (a a' : ConsApp) (buf : Bytes) (hs : Shuffles cfg) (ha : ExampleReach cfg a)
    (hf : a.cons.helloFetcher = some true) (h : ConsApp.step cfg a (.helloComplete buf) = .ok a') :
    ∃ picked : List Name, picked.length = cfg.nSub.toNat ∧ picked.Nodup ∧ (∀ p ∈ picked, p ∈ listed buf) ∧
      ∀ p, a'.cons.isSubscribed p = true ↔ (a.cons.isSubscribed p = true ∨ (p ∈ picked ∧ a.cons.getSeqNo p = none)) := by
  obtain ⟨o, out, h1, h2, _⟩ := step_inv h
  unfold consOp at h1
  simp only [if_pos hf, Res.bind_eq_ok, Res.ok.injEq] at h1
  obtain ⟨avail, i1, acts, i2, rfl⟩ := h1
  simp only [Cons.step, if_pos hf] at h2
  unfold Cons.onHelloData at h2
  simp only [Res.bind_eq_ok] at h2
  obtain ⟨st, hst, r, hr, s1, hs1, hs2⟩ := h2
  have hb : Readable buf := ⟨st, hst, fun n hn => Option.isSome_iff_exists.mp
    ((foldRes_total_iff (helloStep_iff _) _ _).mp ⟨r, hr⟩ n hn)⟩
  obtain ⟨av, k1, _, k3⟩ := helloAvail_eq (s := a.cons) hb
  rw [k1] at i1
  cases i1
  rw [helloCalls_eq hs] at i2
  split at i2
  · rename_i hlen
    cases i2
    obtain ⟨picked, hpk⟩ : ∃ l, l = (cfg.shuffle a.hellos avail.keys).take cfg.nSub.toNat := ⟨_, rfl⟩
    have hperm := hs a.hellos avail.keys
    have hkeys : avail.keys.Nodup := k3.nodup_iff.mpr (List.nodup_dedup _)
    refine ⟨picked, ?_, ?_, ?_, ?_⟩
    · rw [hpk, List.length_take, hperm.length_eq]; omega
    · rw [hpk]; exact (hperm.nodup_iff.mpr hkeys).sublist (List.take_sublist _ _)
    · intro p hp
      rw [hpk] at hp
      exact k3.mem_iff.mp (hperm.mem_iff.mp (List.mem_of_mem_take hp))
    · intro p
      rw [← hpk, foldRes_append, Res.bind_eq_ok] at hs1
      obtain ⟨s0, j1, j2⟩ := hs1
      have e0 : picked.map (pick avail) = (picked.map (fun p => (p, (avail.find p).getD 0))).map
          (fun x => Cons.Call.addSubscription x.1 x.2 true) := by
        rw [List.map_map]; rfl
      rw [e0] at j1
      have hadd := Cons.adds_subs j1 p
      have e1 : s1.subs = s0.subs := Cons.micros_subs (C := fun c => c = .sendSync) (fun c hc => .inr (.inl hc))
        (Cons.calls_micros (fun c hc => by simpa using hc) j2)
      have e2 : a'.cons.subs = s1.subs := by
        split at hs2
        · cases hs2; rfl
        · simp only [foldRes, Res.ok.injEq] at hs2
          rw [← hs2]
          rfl
      have e3 : (picked.map (fun p => (p, (avail.find p).getD 0))).map Prod.fst = picked := by
        rw [List.map_map]; exact List.map_id picked
      obtain ⟨bf0, _, hi⟩ := (reach_cons ha).moment.inv
      have hkn := Cons.hello_known hr hi.sub p
      show (a'.cons.subs.find p).isSome = true ↔ ((a.cons.subs.find p).isSome = true ∨ (p ∈ picked ∧ a.cons.prefixes.find p = none))
      rw [e2, e1, hadd, e3]
      have e4 : r.1.find p = none ↔ a.cons.prefixes.find p = none := by
        simp only at hkn
        cases hx : r.1.find p <;> cases hy : a.cons.prefixes.find p <;> simp [hx, hy] at hkn ⊢
      exact or_congr Iff.rfl (and_congr Iff.rfl e4)
  · cases i2

open ConsApp in
/-- C62, partial: no other event changes the subscriptions. -/
theorem c62_only_hello (cfg : ConsAppCfg) (a a' : ConsApp) (op : ConsApp.Op) (hn : a.isHello op = false)
    (h : ConsApp.step cfg a op = .ok a') (p : Name) : a'.cons.isSubscribed p = a.cons.isSubscribed p := by
  obtain ⟨o, out, h1, h2, _⟩ := step_inv h
  have hC : ∀ c, Cons.During o c → c = .sendHello ∨ c = .sendSync ∨ c = .stop := by
    intro c hc
    rcases hc with hc | rfl | rfl
    · cases op with
      | helloComplete buf =>
        have : ¬ a.cons.helloFetcher = some true := of_decide_eq_false hn
        simp only [consOp, if_neg this, Res.ok.injEq] at h1
        subst h1
        simp only [callsIn, List.append_nil, List.mem_singleton] at hc
        exact .inr (.inl hc)
      | _ =>
        simp only [consOp, Res.ok.injEq] at h1
        subst h1
        simp [callsIn] at hc
        try exact .inl hc
    · exact .inl rfl
    · exact .inr (.inl rfl)
  show (a'.cons.subs.find p).isSome = (a.cons.subs.find p).isSome
  rw [Cons.micros_subs hC (Cons.step_micros h2)]

open ConsApp in
/-- C62, partial: the application is never subscribed to more prefixes than it was told times the number of hello callbacks. -/
theorem c62_at_most (cfg : ConsAppCfg) (a : ConsApp) (hs : Shuffles cfg) (ha : ExampleReach cfg a) :
    ∃ L : List Name, L.length ≤ a.hellos * cfg.nSub.toNat ∧ ∀ p, a.cons.isSubscribed p = true → p ∈ L := by
  obtain ⟨a0, ops, hi, h, hns⟩ := ha
  suffices key : ∀ (ops : List ConsApp.Op) (b c : ConsApp), ConsApp.Op.start ∉ ops → ExampleReach cfg b →
      (∃ L : List Name, L.length ≤ b.hellos * cfg.nSub.toNat ∧ ∀ p, b.cons.isSubscribed p = true → p ∈ L) →
      ConsApp.run cfg b ops = .ok c →
      ∃ L : List Name, L.length ≤ c.hellos * cfg.nSub.toNat ∧ ∀ p, c.cons.isSubscribed p = true → p ∈ L by
    simp only [ConsApp.run, foldRes, Res.bind_eq_ok] at h
    obtain ⟨a1, h1, h2⟩ := h
    have hr1 : ExampleReach cfg a1 := ⟨a0, [], hi, by simp only [ConsApp.run, foldRes, h1, Res.ok_bind], by simp⟩
    refine key ops a1 a hns hr1 ⟨[], by simp, fun p hp => ?_⟩ h2
    rw [c62_only_hello cfg a0 a1 .start rfl h1 p] at hp
    unfold ConsApp.init at hi
    simp only [Res.bind_eq_ok, Res.ok.injEq] at hi
    obtain ⟨c, hc, rfl⟩ := hi
    obtain ⟨_, _, _, _, e, _⟩ := Cons.init_ok hc
    have hp : (c.subs.find p).isSome = true := hp
    rw [e] at hp
    cases hp
  intro ops
  induction ops with
  | nil => intro b c _ _ hL h; simp only [ConsApp.run, foldRes, Res.ok.injEq] at h; subst h; exact hL
  | cons op ops ih =>
    intro b c hn hr hL h
    simp only [ConsApp.run, foldRes, Res.bind_eq_ok] at h
    obtain ⟨b1, h1, h2⟩ := h
    simp only [List.mem_cons, not_or] at hn
    have hr1 : ExampleReach cfg b1 := by
      obtain ⟨x0, xs, y1, y2, y3⟩ := hr
      refine ⟨x0, xs ++ [op], y1, ?_, by simp only [List.mem_append, List.mem_singleton, not_or]; exact ⟨y3, hn.1⟩⟩
      rw [← List.cons_append, ConsApp.run, foldRes_append, ← ConsApp.run, y2, Res.ok_bind]
      simp only [foldRes, h1, Res.ok_bind]
    refine ih b1 c hn.2 hr1 ?_ h2
    obtain ⟨L, hl, hL⟩ := hL
    obtain ⟨_, _, _, _, _, _, hh⟩ := step_inv h1
    cases hb : b.isHello op with
    | false =>
      rw [hb] at hh
      refine ⟨L, by rw [hh]; exact hl, fun p hp => hL p ?_⟩
      rw [← c62_only_hello cfg b b1 op hb h1 p]
      exact hp
    | true =>
      rw [hb] at hh
      cases op with
      | helloComplete buf =>
        obtain ⟨picked, e1, _, _, e2⟩ := c62_every_hello_partial cfg b b1 buf hs hr (of_decide_eq_true hb) h1
        refine ⟨L ++ picked, ?_, fun p hp => ?_⟩
        · rw [hh, if_pos rfl, List.length_append, e1, Nat.add_mul]
          omega
        · rcases (e2 p).mp hp with h3 | ⟨h3, _⟩
          · exact List.mem_append_left _ (hL p h3)
          · exact List.mem_append_right _ h3
      | _ => cases hb

set_option maxRecDepth 100000 in
/-- Non-vacuity: the run of `c62_false`, in which the second hello callback adds a second subscription. -/
example : ((appRun 1 (appAgain ++ [.helloComplete helloAB])).get?.map fun a =>
      (a.hellos, a.cons.isSubscribed pA, a.cons.isSubscribed pB, a.cons.subs.length)) = some (2, true, true, 2) := by decide +kernel

end PSync
