import Mathlib.Data.List.Dedup
import Verif.Spec.Examples
import Verif.Proofs.SafeCons
/-!
The example applications.
-/
namespace PSync
open Spec

/-- The printing loop runs through the range and ends, unless it ends at the largest uint64_t. -/
theorem countUp_ok {high : Nat} (hh : high + 1 < U64) : ∀ (n low : Nat), high + 1 - low = n → ∀ fuel, n < fuel →
    countUp fuel low high = .ok (upTo low high)
  | 0, low, hn, fuel, hf => by
    cases fuel with
    | zero => omega
    | succ fuel =>
      unfold countUp
      rw [if_neg (by omega)]
      unfold upTo
      rw [hn]; rfl
  | n + 1, low, hn, fuel, hf => by
    cases fuel with
    | zero => omega
    | succ fuel =>
      unfold countUp
      rw [if_pos (by omega), Nat.mod_eq_of_lt (by omega), countUp_ok hh n (low + 1) (by omega) fuel (by omega), Res.ok_bind]
      unfold upTo
      rw [hn, show high + 1 - (low + 1) = n by omega]
      rfl

/-- A loop that is to run up to the largest uint64_t never ends. -/
theorem countUp_hang : ∀ (fuel i : Nat), i < U64 → countUp fuel i (U64 - 1) = .hang
  | 0, _, _ => rfl
  | fuel + 1, i, hi => by
    unfold countUp
    rw [if_pos (by omega), countUp_hang fuel _ (Nat.mod_lt _ (by decide)), Res.hang_bind]

/-- What is printed for updates. -/
def prints (us : List MissingDataInfo) : List (Name × Nat) :=
  (us.map (fun u => (upTo u.lowSeq u.highSeq).map (fun i => (u.pfx, i)))).flatten

theorem printUpdates_ok : ∀ (us : List MissingDataInfo), (∀ u ∈ us, u.highSeq + 1 < U64) → printUpdates us = .ok (prints us)
  | [], _ => rfl
  | u :: us, h => by
    unfold printUpdates
    rw [countUp_ok (h u (by simp)) _ u.lowSeq rfl _ (by omega), Res.ok_bind,
      printUpdates_ok us (fun v hv => h v (by simp [hv])), Res.ok_bind]
    rfl

/-- A loop that ends has run through the range; an empty range or one that ends below the largest uint64_t. -/
theorem countUp_inv {fuel low high : Nat} {l : List Nat} (h : countUp fuel low high = .ok l) :
    l = upTo low high ∧ (low ≤ high → high + 1 < U64) := by
  have big : ∀ (fuel i : Nat), i < U64 → U64 ≤ high + 1 → countUp fuel i high = .hang := by
    intro fuel
    induction fuel with
    | zero => exact fun _ _ _ => rfl
    | succ fuel ih =>
      intro i hi hh
      unfold countUp
      rw [if_pos (by omega), ih _ (Nat.mod_lt _ (by decide)) hh, Res.hang_bind]
  by_cases hle : low ≤ high
  · have hb : high + 1 < U64 := by
      by_contra hb
      cases fuel with
      | zero => cases h
      | succ fuel =>
        unfold countUp at h
        rw [if_pos hle, big _ _ (Nat.mod_lt _ (by decide)) (by omega), Res.hang_bind] at h
        cases h
    refine ⟨?_, fun _ => hb⟩
    have grow : ∀ (fuel low : Nat) (l : List Nat), countUp fuel low high = .ok l → l = upTo low high := by
      intro fuel
      induction fuel with
      | zero => intro low l h; cases h
      | succ fuel ih =>
        intro low l h
        unfold countUp at h
        split at h
        · rename_i hle
          rw [Res.bind_eq_ok] at h
          obtain ⟨l', h1, h2⟩ := h
          cases h2
          rw [Nat.mod_eq_of_lt (by omega)] at h1
          rw [ih _ _ h1]
          unfold upTo
          rw [show high + 1 - low = (high + 1 - (low + 1)) + 1 by omega, List.range'_succ]
        · cases h
          unfold upTo
          rw [show high + 1 - low = 0 by omega]; rfl
    exact grow _ _ _ h
  · refine ⟨?_, fun h => absurd h hle⟩
    cases fuel with
    | zero => cases h
    | succ fuel =>
      unfold countUp at h
      rw [if_neg hle] at h
      cases h
      unfold upTo
      rw [show high + 1 - low = 0 by omega]; rfl

/-- What a successful print has printed. -/
theorem printUpdates_inv : ∀ {us : List MissingDataInfo} {out : List (Name × Nat)}, printUpdates us = .ok out →
    out = prints us ∧ ∀ u ∈ us, u.lowSeq ≤ u.highSeq → u.highSeq + 1 < U64
  | [], out, h => by cases h; exact ⟨rfl, by simp⟩
  | u :: us, out, h => by
    unfold printUpdates at h
    simp only [Res.bind_eq_ok, Res.ok.injEq] at h
    obtain ⟨l, h1, r, h2, rfl⟩ := h
    obtain ⟨rfl, k2⟩ := countUp_inv h1
    obtain ⟨rfl, k4⟩ := printUpdates_inv h2
    refine ⟨rfl, fun v hv => ?_⟩
    rcases List.mem_cons.mp hv with rfl | hv
    · exact k2
    · exact k4 v hv

theorem countUp_cases : ∀ (fuel i high : Nat), (∃ l, countUp fuel i high = .ok l) ∨ countUp fuel i high = .hang
  | 0, _, _ => .inr rfl
  | fuel + 1, i, high => by
    unfold countUp
    split
    · rcases countUp_cases fuel ((i + 1) % U64) high with ⟨l, h⟩ | h
      · exact .inl ⟨_, by rw [h, Res.ok_bind]⟩
      · exact .inr (by rw [h, Res.hang_bind])
    · exact .inl ⟨_, rfl⟩

theorem printUpdates_cases : ∀ (us : List MissingDataInfo), (∃ l, printUpdates us = .ok l) ∨ printUpdates us = .hang
  | [] => .inl ⟨_, rfl⟩
  | u :: us => by
    unfold printUpdates
    rcases countUp_cases (u.highSeq + 2) u.lowSeq u.highSeq with ⟨l, h⟩ | h
    · rw [h, Res.ok_bind]
      rcases printUpdates_cases us with ⟨l', h'⟩ | h'
      · exact .inl ⟨_, by rw [h', Res.ok_bind]⟩
      · exact .inr (by rw [h', Res.hang_bind])
    · exact .inr (by rw [h, Res.hang_bind])

/-- Printing a nonempty range that ends at the largest uint64_t never ends. -/
theorem printUpdates_hang {us : List MissingDataInfo} {u : MissingDataInfo} (hu : u ∈ us) (h1 : u.lowSeq ≤ u.highSeq)
    (h2 : U64 ≤ u.highSeq + 1) : printUpdates us = .hang := by
  rcases printUpdates_cases us with ⟨l, h⟩ | h
  · have := (printUpdates_inv h).2 u hu h1
    omega
  · exact h

theorem updatesOf_append (l l' : List Out) : updatesOf (l ++ l') = updatesOf l ++ updatesOf l' := by simp [updatesOf]

namespace ConsApp

/-- The call made for a prefix of the shuffled list. -/
def pick (avail : NMap Nat) (p : Name) : Cons.Call := .addSubscription p ((avail.find p).getD 0) true

theorem picks_eq {avail : NMap Nat} {sensors : List Name} (h : ∀ p ∈ sensors, (avail.find p).isSome) : ∀ (n s : Nat),
    picks avail sensors (List.range' s n) =
      if s + n ≤ sensors.length ∨ n = 0 then .ok (((sensors.drop s).take n).map (pick avail)) else .ub .outOfBounds
  | 0, s => by simp [picks]
  | n + 1, s => by
    rw [List.range'_succ, picks]
    by_cases hs : s < sensors.length
    · rw [List.getElem?_eq_getElem hs]
      simp only
      obtain ⟨q, hq⟩ := Option.isSome_iff_exists.mp (h _ (List.getElem_mem hs))
      rw [hq]
      simp only
      rw [picks_eq h n (s + 1)]
      by_cases hc : s + (n + 1) ≤ sensors.length
      · rw [if_pos (by omega), if_pos (.inl hc), Res.ok_bind]
        rw [List.drop_eq_getElem_cons hs, List.take_succ_cons, List.map_cons]
        congr 2
        unfold pick
        rw [hq]; rfl
      · rw [if_neg (by omega), if_neg (by omega), Res.ub_bind]
    · rw [List.getElem?_eq_none (by omega), if_neg (by omega)]

theorem helloCalls_eq {cfg : ConsAppCfg} (hs : Shuffles cfg) (k : Nat) (avail : NMap Nat) :
    helloCalls cfg k avail = if cfg.nSub.toNat ≤ avail.keys.length then
      .ok (((cfg.shuffle k avail.keys).take cfg.nSub.toNat).map (pick avail) ++ [.sendSync]) else .ub .outOfBounds := by
  unfold helloCalls
  have hp := hs k avail.keys
  rw [List.range_eq_range', picks_eq (fun p h => NMap.mem_keys.mp (hp.mem_iff.mp h)), Nat.zero_add, hp.length_eq, List.drop_zero]
  by_cases h : cfg.nSub.toNat ≤ avail.keys.length
  · rw [if_pos (.inl h), if_pos h, Res.ok_bind]
  · rw [if_neg (by omega), if_neg h, Res.ub_bind]

/-- The map passed to the hello callback holds the first number of each listed prefix. -/
theorem hello_avail {subs : NMap Unit} : ∀ {l : List Name} {a r : NMap Nat × List MissingDataInfo × NMap Nat},
    foldRes (Cons.helloStep subs) a l = .ok r → r.2.2 = (l.filterMap announced).foldl (fun m x => m.emplace x.1 x.2) a.2.2
  | [], a, r, h => by simp only [foldRes, Res.ok.injEq] at h; subst h; rfl
  | n :: l, a, r, h => by
    simp only [foldRes, Res.bind_eq_ok] at h
    obtain ⟨b, h1, h2⟩ := h
    have e1 : ∃ p q, announced n = some (p, q) ∧ b.2.2 = a.2.2.emplace p q := by
      unfold Cons.helloStep at h1
      rw [Res.bind_eq_ok] at h1
      obtain ⟨⟨p, q⟩, k1, k2⟩ := h1
      refine ⟨p, q, (Cons.splitName_ok k1).1, ?_⟩
      obtain ⟨x, y, z⟩ := a
      simp only at k2
      split at k2
      · split at k2 <;> (simp only [Res.ok.injEq] at k2; subst k2; rfl)
      · simp only [Res.ok.injEq] at k2; subst k2; rfl
    obtain ⟨p, q, e1, e2⟩ := e1
    rw [hello_avail h2, List.filterMap_cons_some e1, List.foldl_cons, e2]

theorem emplaces_find (p : Name) : ∀ (l : List (Name × Nat)) (m : NMap Nat),
    (l.foldl (fun m x => m.emplace x.1 x.2) m).find p =
      ((m.find p).or ((l.find? (fun x => decide (x.1 = p))).map Prod.snd))
  | [], m => by simp
  | x :: l, m => by
    rw [List.foldl_cons, emplaces_find p l, NMap.find_emplace, List.find?_cons]
    by_cases hx : x.1 = p
    · rw [if_pos hx, hx]
      simp only [decide_true, Option.map_some]
      cases h : m.find p <;> simp
    · rw [if_neg hx]
      simp [hx]

theorem emplaces_sorted : ∀ (l : List (Name × Nat)) (m : NMap Nat), m.Sorted →
    (l.foldl (fun m x => m.emplace x.1 x.2) m).Sorted
  | [], _, h => h
  | _ :: l, _, h => emplaces_sorted l _ (NMap.sorted_emplace h _ _)

theorem helloAvail_eq {s : Cons} {buf : Bytes} (hb : Readable buf) :
    ∃ avail, helloAvail s buf = .ok avail ∧ (∀ p, avail.find p = firstNumber buf p) ∧ avail.keys.Perm (listed buf) := by
  obtain ⟨st, h1, h2⟩ := hb
  obtain ⟨r, hr⟩ := Cons.helloSteps_total s.subs st.content (s.prefixes, [], []) h2
  have he := hello_avail hr
  have ha : announcements buf = st.content.filterMap announced := by unfold announcements contentNames; rw [h1]
  have hf : ∀ p, r.2.2.find p = firstNumber buf p := by
    intro p
    rw [he, emplaces_find, ← ha]
    simp [firstNumber]
  refine ⟨r.2.2, ?_, hf, ?_⟩
  · unfold helloAvail
    rw [h1, Res.ok_bind, hr, Res.ok_bind]
  · have hso : NMap.Sorted r.2.2 := by rw [he]; exact emplaces_sorted _ _ NMap.sorted_nil
    unfold listed
    rw [List.perm_ext_iff_of_nodup (NMap.keys_nodup hso) (List.nodup_dedup _)]
    intro p
    rw [NMap.mem_keys, hf]
    unfold firstNumber
    rw [List.mem_dedup, Option.isSome_map, List.find?_isSome]
    simp

end ConsApp
end PSync

namespace PSync
open Spec

namespace Cons

/-- The update callback that addSubscription makes. -/
def firstUpdate (x : Name × Nat) : List Out := if x.2 ≠ 0 then [.update [⟨x.1, x.2, x.2, 0⟩]] else []

/-- Adding new subscriptions. -/
theorem adds_total {cc : CCfg} : ∀ (l : List (Name × Nat)) {s : Cons}, SizedBf s.bloom → (∀ x ∈ l, s.prefixes.find x.1 = none) →
    (l.map Prod.fst).Nodup → (∀ x ∈ l, x.2 < U64) →
    ∃ s', foldRes (call cc) s (l.map (fun x => .addSubscription x.1 x.2 true)) = .ok s' ∧
      s'.iblt = s.iblt ∧
      (∀ p, (s'.subs.find p).isSome ↔ (s.subs.find p).isSome ∨ p ∈ l.map Prod.fst) ∧
      (∀ x ∈ l, s'.prefixes.find x.1 = some x.2) ∧
      (∀ p, p ∉ l.map Prod.fst → s'.prefixes.find p = s.prefixes.find p) ∧
      s'.log = s.log ++ (l.map firstUpdate).flatten ∧ s'.helloFetcher = s.helloFetcher ∧ s'.syncFetcher = s.syncFetcher
  | [], s, _, _, _, _ => ⟨s, rfl, rfl, by simp, by simp, by simp, by simp, rfl, rfl⟩
  | (p, q) :: l, s, hz, hnew, hnd, hlt => by
    obtain ⟨bf, hb, hz'⟩ := insert_total hz p
    have hq : q % U64 = q := Nat.mod_eq_of_lt (hlt (p, q) (by simp))
    simp only [List.map_cons, List.nodup_cons] at hnd
    have hc : call cc s (.addSubscription p q true) = .ok
        ({ s with prefixes := s.prefixes.set p q, subs := s.subs.set p (), bloom := bf, log := s.log ++ firstUpdate (p, q) }) := by
      unfold call addSubscription
      have hn : s.prefixes.find p = none := hnew (p, q) (by simp)
      simp only [hn, hb, Res.ok_bind, hq]
      unfold firstUpdate emit
      by_cases h0 : q = 0
      · simp [h0]
      · simp [h0]
    obtain ⟨s', k1, k2, k3, k4, k5, k6, k7, k8⟩ := adds_total (cc := cc) l
      (s := { s with prefixes := s.prefixes.set p q, subs := s.subs.set p (), bloom := bf, log := s.log ++ firstUpdate (p, q) })
      hz' (fun x hx => by
        have : p ≠ x.1 := fun h => hnd.1 (h ▸ List.mem_map_of_mem hx)
        simp only [NMap.find_set, if_neg this]
        exact hnew x (by simp [hx])) hnd.2 (fun x hx => hlt x (by simp [hx]))
    refine ⟨s', ?_, k2, ?_, ?_, ?_, ?_, k7, k8⟩
    · simp only [List.map_cons, foldRes, hc, Res.ok_bind, k1]
    · intro p'
      rw [k3 p']
      simp only [NMap.find_set, List.map_cons, List.mem_cons]
      by_cases h : p = p'
      · simp [h]
      · simp [h, Ne.symm h]
    · intro x hx
      rcases List.mem_cons.mp hx with rfl | hx
      · rw [k5 _ hnd.1]; simp [NMap.find_set]
      · exact k4 x hx
    · intro p' hp'
      simp only [List.map_cons, List.mem_cons, not_or] at hp'
      rw [k5 _ hp'.2]
      simp only [NMap.find_set, if_neg (Ne.symm hp'.1)]
    · rw [k6]
      simp [List.append_assoc]

end Cons

namespace ConsApp

/-- Before the first hello callback there are no subscriptions, no known prefixes and no sync Interest. -/
structure Fresh (a : ConsApp) : Prop where
  prefixes : a.cons.prefixes = []
  subs : a.cons.subs = []
  sync : a.cons.syncFetcher ≠ some true
  timers : ∀ d, (d, CTimer.sync) ∉ a.cons.timers

theorem step_inv {cfg : ConsAppCfg} {a a' : ConsApp} {op : Op} (h : step cfg a op = .ok a') :
    ∃ o out, consOp cfg a op = .ok o ∧ Cons.step cfg.consumer a.cons o = .ok a'.cons ∧
      printUpdates (updatesOf (a'.cons.log.drop a.cons.log.length)) = .ok out ∧ a'.printed = a.printed ++ out ∧
      a'.hellos = (if a.isHello op then a.hellos + 1 else a.hellos) := by
  unfold step at h
  simp only [Res.bind_eq_ok, Res.ok.injEq] at h
  obtain ⟨o, h1, c, h2, out, h3, rfl⟩ := h
  exact ⟨o, out, h1, h2, h3, rfl, rfl⟩

theorem Fresh.step {cfg : ConsAppCfg} {a a' : ConsApp} {op : Op} (hf : Fresh a) (h : step cfg a op = .ok a') :
    Fresh a' ∨ a.isHello op = true := by
  obtain ⟨o, out, h1, h2, -⟩ := step_inv h
  have keep : ∀ {c : Cons}, a'.cons = c → c.prefixes = a.cons.prefixes → c.subs = a.cons.subs → (c.syncFetcher = a.cons.syncFetcher) →
      (∀ d, (d, CTimer.sync) ∈ c.timers → (d, CTimer.sync) ∈ a.cons.timers) → Fresh a' := by
    intro c e e1 e2 e3 e4
    exact ⟨by rw [e, e1, hf.prefixes], by rw [e, e2, hf.subs], by rw [e, e3]; exact hf.sync, fun d hd => hf.timers d (e4 d (e ▸ hd))⟩
  cases op with
  | start =>
    cases h1
    simp only [Cons.step, Cons.call, Res.ok.injEq] at h2
    exact .inl (keep h2.symm rfl rfl rfl (fun _ h => h))
  | helloSegment d =>
    cases h1
    simp only [Cons.step] at h2
    split at h2
    · split at h2 <;> (simp only [Res.ok.injEq] at h2; exact .inl (keep h2.symm rfl rfl rfl (fun _ h => h)))
    · simp only [Res.ok.injEq] at h2; exact .inl (keep h2.symm rfl rfl rfl (fun _ h => h))
  | helloComplete buf =>
    by_cases hh : a.cons.helloFetcher = some true
    · exact .inr (by simp [isHello, hh])
    · simp only [consOp, if_neg hh, Res.ok.injEq] at h1
      subst h1
      simp only [Cons.step, if_neg hh, Res.ok.injEq] at h2
      exact .inl (keep h2.symm rfl rfl rfl (fun _ h => h))
  | helloError =>
    cases h1
    simp only [Cons.step] at h2
    split at h2 <;> simp only [Res.ok.injEq] at h2
    · exact .inl (keep h2.symm (by rfl) (by rfl) (by rfl) (fun d hd => by simpa using hd))
    · exact .inl (keep h2.symm rfl rfl rfl (fun _ h => h))
  | syncSegment d =>
    cases h1
    simp only [Cons.step, if_neg hf.sync, Res.ok.injEq] at h2
    exact .inl (keep h2.symm rfl rfl rfl (fun _ h => h))
  | syncComplete buf =>
    cases h1
    simp only [Cons.step, if_neg hf.sync, Res.ok.injEq] at h2
    exact .inl (keep h2.symm rfl rfl rfl (fun _ h => h))
  | syncError t =>
    cases h1
    simp only [Cons.step, if_neg hf.sync, Res.ok.injEq] at h2
    exact .inl (keep h2.symm rfl rfl rfl (fun _ h => h))
  | tick t =>
    cases h1
    simp only [Cons.step, Res.ok.injEq] at h2
    split at h2 <;> exact .inl (keep h2.symm (by rfl) (by rfl) (by rfl) (fun _ h => h))
  | fire =>
    cases h1
    simp only [Cons.step] at h2
    split at h2
    · simp only [Res.ok.injEq] at h2; exact .inl (keep h2.symm rfl rfl rfl (fun _ h => h))
    · rename_i ts hts
      simp only [Res.ok.injEq] at h2
      exact .inl (keep h2.symm (by rfl) (by rfl) (by rfl) (fun d hd => (Cons.takeDue_mem hts).2 _ hd))
    · rename_i ts hts
      obtain ⟨d, hd⟩ := (Cons.takeDue_mem hts).1
      exact absurd hd (hf.timers d)

theorem reach_cons {cfg : ConsAppCfg} {a : ConsApp} (h : ExampleReach cfg a) : Cons.Reach cfg.consumer a.cons := by
  obtain ⟨a0, ops, h0, h1, -⟩ := h
  unfold init at h0
  simp only [Res.bind_eq_ok, Res.ok.injEq] at h0
  obtain ⟨c, h0, rfl⟩ := h0
  refine foldRes_inv (P := fun a : ConsApp => Cons.Reach cfg.consumer a.cons) _ ?_ ⟨c, [], h0, rfl⟩ h1
  intro s op s' _ hs hst
  obtain ⟨o, _, _, h2, -⟩ := step_inv hst
  obtain ⟨s0, l, k1, k2⟩ := hs
  exact ⟨s0, l ++ [o], k1, by
    unfold Cons.run at k2 ⊢
    rw [foldRes_append, k2, Res.ok_bind]; simp only [foldRes, h2, Res.ok_bind]⟩

theorem reach_fresh {cfg : ConsAppCfg} {a : ConsApp} (h : ExampleReach cfg a) (h0 : a.hellos = 0) : Fresh a := by
  obtain ⟨a0, ops, hi, h1, -⟩ := h
  unfold init at hi
  simp only [Res.bind_eq_ok, Res.ok.injEq] at hi
  obtain ⟨c, hi, rfl⟩ := hi
  have hc := Cons.init_ok hi
  refine foldRes_inv (P := fun a : ConsApp => a.hellos = 0 → Fresh a) _ ?_ (fun _ => ?_) h1 h0
  · intro s op s' _ hs hst h0'
    obtain ⟨o, _, _, _, _, _, h5⟩ := step_inv hst
    split at h5
    · omega
    · rename_i hn
      rcases (hs (by omega)).step hst with k | k
      · exact k
      · exact absurd k hn
  · unfold Cons.init at hi
    simp only [Res.bind_eq_ok, Res.ok.injEq] at hi
    obtain ⟨_, _, rfl⟩ := hi
    exact ⟨rfl, rfl, by simp, by simp⟩

end ConsApp
end PSync
