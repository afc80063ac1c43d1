import Verif.Props.Often
import Verif.Props.Snapshot
/-!
C124: how often the update callback of a consumer is called.
-/
namespace PSync
open Spec

/-- The numbers listed for a prefix increase and are not above the table. -/
structure Climbs (L : List (Name × Nat)) (m : NMap Nat) : Prop where
  rising : L.Pairwise (fun a b => a.1 = b.1 → a.2 < b.2)
  known : ∀ e ∈ L, ∃ x, m.find e.1 = some x ∧ e.2 ≤ x

theorem Climbs.keep {L : List (Name × Nat)} {m m' : NMap Nat} (h : Climbs L m) (hk : ∀ p x, m.find p = some x → ∃ y, m'.find p = some y ∧ x ≤ y) :
    Climbs L m' :=
  ⟨h.rising, fun e he => by
    obtain ⟨x, h1, h2⟩ := h.known e he
    obtain ⟨y, h3, h4⟩ := hk _ _ h1
    exact ⟨y, h3, by omega⟩⟩

theorem Climbs.add {L : List (Name × Nat)} {m m' : NMap Nat} (h : Climbs L m) {p : Name} {q : Nat} (hq : ∀ x, m.find p = some x → x < q)
    (hm : ∀ p', m'.find p' = if p = p' then some q else m.find p') : Climbs (L ++ [(p, q)]) m' := by
  have h1 : Climbs L m' := h.keep (fun p' x hx => by
    rw [hm]
    split
    · rename_i e
      subst e
      exact ⟨q, rfl, le_of_lt (hq x hx)⟩
    · exact ⟨x, hx, le_refl _⟩)
  refine ⟨List.pairwise_append.mpr ⟨h.rising, List.pairwise_singleton .., fun a ha b hb e => ?_⟩, fun e he => ?_⟩
  · cases List.mem_singleton.mp hb
    obtain ⟨x, h2, h3⟩ := h.known a ha
    have := hq x (by rw [← h2, e])
    simp only
    omega
  · rcases List.mem_append.mp he with he | he
    · exact h1.known e he
    · cases List.mem_singleton.mp he
      exact ⟨q, by rw [hm, if_pos rfl], le_refl _⟩

theorem Climbs.insert {A B : List (Name × Nat)} {m : NMap Nat} (h : Climbs (A ++ B) m) {p : Name} (hp : m.find p = none) (q : Nat) :
    Climbs (A ++ [(p, q)] ++ B) (m.set p q) := by
  have hne : ∀ e ∈ A ++ B, e.1 ≠ p := by
    intro e he hx
    obtain ⟨x, h1, _⟩ := h.known e he
    rw [hx, hp] at h1
    cases h1
  have hk : ∀ p' x, m.find p' = some x → ∃ y, (m.set p q).find p' = some y ∧ x ≤ y := by
    intro p' x hx
    refine ⟨x, ?_, le_refl _⟩
    rw [NMap.find_set, if_neg (fun e => by subst e; rw [hp] at hx; cases hx)]
    exact hx
  obtain ⟨r1, r2, r3⟩ := List.pairwise_append.mp h.rising
  refine ⟨?_, fun e he => ?_⟩
  · refine List.pairwise_append.mpr ⟨List.pairwise_append.mpr ⟨r1, List.pairwise_singleton .., fun a ha b hb e => ?_⟩, r2, fun a ha b hb e => ?_⟩
    · cases List.mem_singleton.mp hb
      exact absurd e (hne a (List.mem_append_left _ ha))
    · rcases List.mem_append.mp ha with ha | ha
      · exact r3 a ha b hb e
      · cases List.mem_singleton.mp ha
        exact absurd e.symm (hne b (List.mem_append_right _ hb))
  · rw [List.append_assoc] at he
    rcases List.mem_append.mp he with he | he
    · exact (h.keep hk).known e (List.mem_append_left _ he)
    · rcases List.mem_append.mp he with he | he
      · cases List.mem_singleton.mp he
        exact ⟨q, by rw [NMap.find_set, if_pos rfl], le_refl _⟩
      · exact (h.keep hk).known e (List.mem_append_right _ he)

/-- What the entries of one call say. -/
def pairsOf (us : List MissingDataInfo) : List (Name × Nat) := us.map (fun u => (u.pfx, u.highSeq))

namespace Cons
variable {cc : CCfg}

theorem sync_climbs {L : List (Name × Nat)} : ∀ {names : List Name} {a r : NMap Nat × List MissingDataInfo},
    foldRes syncStep a names = .ok r → Climbs (L ++ pairsOf a.2) a.1 → Climbs (L ++ pairsOf r.2) r.1 := by
  intro names a r h h0
  refine foldRes_inv (P := fun a => Climbs (L ++ pairsOf a.2) a.1) names (fun a n a' _ hi h1 => ?_) h0 h
  obtain ⟨p, q, _, _, ⟨hf, rfl⟩ | ⟨c, hf, hlt, rfl⟩ | ⟨c, _, _, rfl⟩⟩ := syncStep_ok h1
  · have := hi.add (p := p) (q := q) (m' := a.1.set p q) (fun x hx => by rw [hf] at hx; cases hx) (NMap.find_set a.1 p q)
    simpa [pairsOf, List.append_assoc] using this
  · have := hi.add (p := p) (q := q) (m' := a.1.set p q) (fun x hx => by rw [hf] at hx; cases hx; exact hlt) (NMap.find_set a.1 p q)
    simpa [pairsOf, List.append_assoc] using this
  · exact hi

theorem hello_climbs {L : List (Name × Nat)} {subs : NMap Unit} : ∀ {names : List Name} {a r : NMap Nat × List MissingDataInfo × NMap Nat},
    foldRes (helloStep subs) a names = .ok r → Climbs (L ++ pairsOf a.2.1) a.1 → Climbs (L ++ pairsOf r.2.1) r.1 := by
  intro names a r h h0
  refine foldRes_inv (P := fun a => Climbs (L ++ pairsOf a.2.1) a.1) names (fun a n a' _ hi h1 => ?_) h0 h
  unfold helloStep at h1
  rw [Res.bind_eq_ok] at h1
  obtain ⟨⟨p, q⟩, _, h2⟩ := h1
  simp only at h2
  split at h2
  · split at h2
    · rename_i hlt
      cases h2
      have := hi.add (p := p) (q := q) (m' := (a.1.emplace p 0).set p q) (fun x hx => by rw [hx] at hlt; simpa using hlt) (fun p' => by
        rw [NMap.find_set, NMap.find_emplace]
        split <;> rfl)
      simpa [pairsOf, List.append_assoc] using this
    · cases h2
      refine hi.keep (fun p' x hx => ⟨x, ?_, le_refl _⟩)
      rw [NMap.find_emplace]
      split
      · rename_i e
        subst e
        rw [hx]
        rfl
      · exact hx
  · cases h2
    exact hi

/-- The consumer's reports, with the ones it is about to make. -/
structure Reports (us : List MissingDataInfo) (s : Cons) : Prop where
  climbs : Climbs (toldPairs s.log ++ pairsOf us) s.prefixes
  full : ∀ us ∈ updateCalls s.log, us ≠ []

theorem Reports.same {us : List MissingDataInfo} {s s' : Cons} (h : Reports us s) (h1 : s'.prefixes = s.prefixes) (h2 : s'.log = s.log) :
    Reports us s' := ⟨by rw [h1, h2]; exact h.climbs, by rw [h2]; exact h.full⟩

theorem Reports.quiet {us : List MissingDataInfo} {s s' : Cons} (h : Reports us s) {o : Out} (ho : ∀ us, o ≠ .update us)
    (h1 : s'.prefixes = s.prefixes) (h2 : s'.log = s.log ++ [o]) : Reports us s' := by
  have e : updateCalls s'.log = updateCalls s.log := by
    rw [h2, updateCalls_append, updateCalls_none (l := [o]) (fun us hm => ho us (List.mem_singleton.mp hm).symm), List.append_nil]
  have e2 : toldPairs s'.log = toldPairs s.log := by unfold toldPairs; rw [e]
  exact ⟨by rw [h1, e2]; exact h.climbs, by rw [e]; exact h.full⟩

theorem Reports.tell {us : List MissingDataInfo} {s : Cons} (h : Reports us s) (hne : us ≠ []) : Reports [] (s.emit (.update us)) := by
  have e : toldPairs (s.log ++ [.update us]) = toldPairs s.log ++ pairsOf us := by
    rw [toldPairs_append]; simp [toldPairs, updateCalls, pairsOf]
  refine ⟨?_, ?_⟩
  · have : Climbs (toldPairs (s.log ++ [.update us]) ++ pairsOf []) s.prefixes := by
      rw [e]; simpa [pairsOf] using h.climbs
    exact this
  · intro us' hu
    have hu' : us' ∈ updateCalls (s.log ++ [.update us]) := hu
    rw [updateCalls_append] at hu'
    rcases List.mem_append.mp hu' with hu' | hu'
    · exact h.full us' hu'
    · simp only [updateCalls, List.filterMap_cons, List.filterMap_nil, List.mem_singleton] at hu'
      exact hu' ▸ hne

theorem Reports.sendSync {us : List MissingDataInfo} {s s' : Cons} (h : Reports us s) (hs : s.sendSyncInterest cc = .ok s') : Reports us s' := by
  obtain ⟨_, cs, _, rfl⟩ := sendSyncInterest_ok hs
  exact h.quiet (by simp) rfl rfl

theorem Reports.call {us : List MissingDataInfo} {s s' : Cons} (h : Reports us s) {c : Call} (hc : ∀ p, c ≠ .removeSubscription p)
    (hs : Cons.call cc s c = .ok s') : Reports us s' := by
  cases c with
  | addSubscription p q cb =>
    simp only [Cons.call, Res.bind_eq_ok, Res.ok.injEq] at hs
    obtain ⟨⟨r, s1⟩, h1, rfl⟩ := hs
    rcases addSubscription_ok h1 with ⟨_, _, rfl⟩ | ⟨hf, _, bf, _, e1, _, _, _, e2⟩
    · exact h
    · split at e2
      · have e : toldPairs s1.log = toldPairs s.log ++ [(p, q % U64)] := by
          rw [e2, toldPairs_append]; simp [toldPairs, updateCalls]
        refine ⟨?_, ?_⟩
        · rw [e, e1]
          exact h.climbs.insert hf _
        · intro us' hu
          rw [e2, updateCalls_append] at hu
          rcases List.mem_append.mp hu with hu | hu
          · exact h.full us' hu
          · simp only [updateCalls, List.filterMap_cons, List.filterMap_nil, List.mem_singleton] at hu
            rw [hu]
            simp
      · rw [List.append_nil] at e2
        refine ⟨?_, by rw [e2]; exact h.full⟩
        rw [e2, e1]
        refine h.climbs.keep (fun p' x hx => ⟨x, ?_, le_refl _⟩)
        rw [NMap.find_set, if_neg (fun e => by subst e; rw [hf] at hx; cases hx)]
        exact hx
  | removeSubscription p => exact absurd rfl (hc p)
  | sendHello => simp only [Cons.call, Res.ok.injEq] at hs; subst hs; exact h.quiet (by simp) rfl rfl
  | sendSync => exact h.sendSync hs
  | stop => simp only [Cons.call, Res.ok.injEq] at hs; subst hs; exact h.same rfl rfl

theorem Reports.calls {us : List MissingDataInfo} {cs : List Call} {s s' : Cons} (h : Reports us s) (hc : ∀ p, Call.removeSubscription p ∉ cs)
    (hs : foldRes (Cons.call cc) s cs = .ok s') : Reports us s' :=
  foldRes_inv (P := Reports us) cs (fun _ _ _ hm hi h1 => hi.call (fun p e => hc p (e ▸ hm)) h1) h hs

theorem Reports.onHello {s s' : Cons} (h : Reports [] s) {buf : Bytes} {a1 a2 : List Call} (hc : ∀ p, Call.removeSubscription p ∉ a1 ++ a2)
    (hs : onHelloData cc s buf a1 a2 = .ok s') : Reports [] s' := by
  unfold onHelloData at hs
  simp only [Res.bind_eq_ok] at hs
  obtain ⟨st, hst, r, hr, s1, k1, k2⟩ := hs
  have h0 : Reports r.2.1 { s with iblt := s.helloDataName.drop (s.helloDataName.length - 1), prefixes := r.1 } :=
    ⟨hello_climbs hr h.climbs, h.full⟩
  have h1 := (h0.quiet (s' := { s with iblt := s.helloDataName.drop (s.helloDataName.length - 1), prefixes := r.1 }.emit (.hello r.2.2))
    (by simp) rfl rfl).calls (fun p hm => hc p (List.mem_append_left _ hm)) k1
  split at k2
  · rename_i he
    cases k2
    rw [List.isEmpty_iff.mp he] at h1
    exact h1
  · rename_i he
    exact (h1.tell (by simpa using he)).calls (fun p hm => hc p (List.mem_append_right _ hm)) k2

theorem Reports.onSync {s s' : Cons} (h : Reports [] s) {buf : Bytes} {a : List Call} (hc : ∀ p, Call.removeSubscription p ∉ a)
    (hs : onSyncData cc s buf a = .ok s') : Reports [] s' := by
  unfold onSyncData at hs
  simp only [Res.bind_eq_ok] at hs
  obtain ⟨st, hst, r, hr, s1, k1, k2⟩ := hs
  have h0 : Reports r.2 { s with iblt := s.syncDataName.drop (s.syncDataName.length - 1), prefixes := r.1 } :=
    ⟨sync_climbs hr h.climbs, h.full⟩
  refine Reports.sendSync ?_ k2
  split at k1
  · rename_i he
    cases k1
    rw [List.isEmpty_iff.mp he] at h0
    exact h0
  · rename_i he
    exact (h0.tell (by simpa using he)).calls hc k1

/-- One event. -/
theorem Reports.step {s s' : Cons} (h : Reports [] s) {op : Op} (hc : ∀ p, Call.removeSubscription p ∉ callsIn op)
    (hs : step cc s op = .ok s') : Reports [] s' := by
  cases op with
  | call c => exact h.call (fun p e => hc p (by simp [callsIn, e])) hs
  | helloSegment d =>
    simp only [Cons.step] at hs
    split at hs <;> cases hs
    · split
      · exact h.same rfl rfl
      · exact h
    · exact h
  | helloComplete buf a1 a2 =>
    simp only [Cons.step] at hs
    split at hs
    · exact (h.same (s' := { s with helloFetcher := some false }) rfl rfl).onHello hc hs
    · cases hs; exact h
  | helloError =>
    simp only [Cons.step] at hs
    split at hs <;> cases hs
    · exact h.same rfl rfl
    · exact h
  | syncSegment d =>
    simp only [Cons.step] at hs
    split at hs
    · simp only [Res.ok.injEq] at hs
      obtain ⟨s1, e1, e2, hs⟩ : ∃ s1 : Cons, s1.prefixes = s.prefixes ∧ s1.log = s.log ∧
          (if s1.contentType = .nack then s1.sendHelloInterest cc else s1) = s' :=
        ⟨_, by split <;> rfl, by split <;> rfl, hs⟩
      have h1 := h.same e1 e2
      split at hs <;> subst hs
      · exact h1.quiet (by simp) rfl rfl
      · exact h1
    · cases hs; exact h
  | syncComplete buf a =>
    simp only [Cons.step] at hs
    split at hs
    · split at hs
      · cases hs; exact h.same rfl rfl
      · exact (h.same (s' := { s with syncFetcher := some false }) rfl rfl).onSync hc hs
    · cases hs; exact h
  | syncError t =>
    simp only [Cons.step] at hs
    split at hs
    · split at hs
      · exact (h.same (s' := { s with syncFetcher := some false }) rfl rfl).sendSync hs
      · cases hs; exact h.same rfl rfl
    · cases hs; exact h
  | tick t =>
    simp only [Cons.step, Res.ok.injEq] at hs
    subst hs
    split
    · exact h.same rfl rfl
    · exact h
  | fire =>
    simp only [Cons.step] at hs
    split at hs
    · cases hs; exact h
    · rename_i ts _
      cases hs
      exact (h.same (s' := { s with timers := ts }) rfl rfl).quiet (by simp) rfl rfl
    · rename_i ts _
      exact (h.same (s' := { s with timers := ts }) rfl rfl).sendSync hs

theorem Reports.init {s : Cons} (h : Cons.init cc = .ok s) : Reports [] s := by
  have h1 : s.log = [] ∧ s.prefixes = [] := by
    unfold Cons.init at h
    simp only [Res.bind_eq_ok, Res.ok.injEq] at h
    obtain ⟨_, _, rfl⟩ := h
    exact ⟨rfl, rfl⟩
  exact ⟨⟨by simp [h1, toldPairs, updateCalls, pairsOf], by simp [h1, toldPairs, updateCalls, pairsOf]⟩, by simp [h1, updateCalls]⟩

end Cons

/-- C124 for a consumer that does not unsubscribe, whatever it receives: the highest numbers that the update callback is given for a prefix
increase from entry to entry, and the callback is never called with an empty list. -/
theorem c124_rising (cc : CCfg) (s0 s : Cons) (ops : List Cons.Op) (h0 : Cons.init cc = .ok s0) (h : Cons.run cc s0 ops = .ok s)
    (hrem : ∀ op ∈ ops, ∀ p, Cons.Call.removeSubscription p ∉ callsIn op) :
    (toldPairs s.log).Pairwise (fun a b => a.1 = b.1 → a.2 < b.2) ∧ ∀ us ∈ updateCalls s.log, us ≠ [] := by
  have := foldRes_inv (P := Cons.Reports []) ops (fun _ op _ hm hi h1 => hi.step (hrem op hm) h1) (Cons.Reports.init h0) h
  exact ⟨by simpa [pairsOf] using this.climbs.rising, this.full⟩

/-- The publications of the producer in the first `n` events: the prefixes given to publishName. -/
def Spec.publishCalls (what : Nat → PSEv) (n : Nat) : List Name :=
  (List.range n).filterMap (fun k => match what k with
    | .prod (.publishName p _) => some p
    | _ => none)

/-- The subscriptions of the consumer's application in the first `n` events: prefixes and numbers given to addSubscription. -/
def Spec.subscribeCalls (what : Nat → PSEv) (n : Nat) : List (Name × Nat) :=
  (List.range n).flatMap (fun k => match what k with
    | .cons op => (callsIn op).filterMap (fun c => match c with
      | .addSubscription p q _ => some (p, q)
      | _ => none)
    | _ => [])

section
variable {pc : Cfg} {cc : CCfg} {P : Nat → Part} {C : Nat → Cons} {what : Nat → PSEv} {len : Nat}

theorem Spec.PSRun.reports (h : PSRun pc cc P C what len)
    (hrem : ∀ k < len, ∀ op, what k = .cons op → ∀ p, Cons.Call.removeSubscription p ∉ callsIn op) :
    ∀ n ≤ len, Cons.Reports [] (C n) := by
  intro n
  induction n with
  | zero => exact fun _ => Cons.Reports.init h.initC
  | succ n ih =>
    intro hn
    have hi := ih (by omega)
    cases h.step n (by omega) with
    | prod op _ _ hc => rw [hc]; exact hi
    | cons op hw hs _ _ _ => exact hi.step (hrem n (by omega) op hw) hs

/-- What the calls of publishName made of the numbers. -/
def publishedPairs (P : Nat → Part) (what : Nat → PSEv) (n : Nat) : List (Name × Nat) :=
  (List.range n).filterMap (fun k => match what k with
    | .prod (.publishName p _) => some (p, ((P (k + 1)).base.getSeqNo p).getD 0)
    | _ => none)

theorem publishedPairs_length (P : Nat → Part) (what : Nat → PSEv) (n : Nat) :
    (publishedPairs P what n).length = (publishCalls what n).length := by
  have : (publishedPairs P what n).map Prod.fst = publishCalls what n := by
    unfold publishedPairs publishCalls
    rw [List.map_filterMap]
    congr 1
    funext k
    split <;> rfl
  rw [← this, List.length_map]

/-- C124 for a subscriber that does not unsubscribe: the entries that its update callback is given, and so the calls of the callback that
report more than the number 0, are not more than the calls of publishName at the producer and of addSubscription together. -/
theorem c124_bound (h : PSRun pc cc P C what len) (hm : Matching pc cc) (hr : Regular pc P what len)
    (hrem : ∀ k < len, ∀ op, what k = .cons op → ∀ p, Cons.Call.removeSubscription p ∉ callsIn op) (n : Nat) (hn : n ≤ len) :
    ((toldPairs (C n).log).filter (fun e => e.2 ≠ 0)).length ≤ (publishCalls what n).length + (subscribeCalls what n).length := by
  have ht := h.reports hrem n hn
  have hrise : (toldPairs (C n).log).Pairwise (fun a b => a.1 = b.1 → a.2 < b.2) := by simpa [pairsOf] using ht.climbs.rising
  have hnd : ((toldPairs (C n).log).filter (fun e => e.2 ≠ 0)).Nodup :=
    (List.Pairwise.imp (fun {a b} (hab : a.1 = b.1 → a.2 < b.2) e => by subst e; exact absurd (hab rfl) (lt_irrefl _)) hrise).filter _
  have hsub : (toldPairs (C n).log).filter (fun e => e.2 ≠ 0) ⊆
      publishedPairs P what n ++ (subscribeCalls what n).map (fun e => (e.1, e.2 % 2 ^ 64)) := by
    intro e he
    obtain ⟨he, h0⟩ := List.mem_filter.mp he
    unfold toldPairs at he
    obtain ⟨u, hu, rfl⟩ := List.mem_map.mp he
    obtain ⟨us, hus, hmm⟩ := List.mem_flatten.mp hu
    unfold updateCalls at hus
    obtain ⟨o, ho, hx⟩ := List.mem_filterMap.mp hus
    split at hx
    · cases hx
      rcases c75_notified h hm hr n hn _ ho u hmm (by simpa using h0) with ⟨k, hk, seq, hw, _, h2⟩ | ⟨k, hk, op, x, cb, hw, hc, e⟩
      · refine List.mem_append_left _ (List.mem_filterMap.mpr ⟨k, List.mem_range.mpr hk, ?_⟩)
        simp only [hw, h2, Option.getD_some]
      · refine List.mem_append_right _ (List.mem_map.mpr ⟨(u.pfx, x), List.mem_flatMap.mpr ⟨k, List.mem_range.mpr hk, ?_⟩, by rw [e]⟩)
        rw [hw]
        exact List.mem_filterMap.mpr ⟨_, hc, rfl⟩
    · cases hx
  have := (hnd.subperm hsub).length_le
  rwa [List.length_append, List.length_map, publishedPairs_length] at this

theorem calls_le_entries : ∀ (l : List (List MissingDataInfo)),
    (l.filter (fun us => us.any (fun u => u.highSeq ≠ 0))).length ≤ ((pairsOf l.flatten).filter (fun e => e.2 ≠ 0)).length
  | [] => by simp
  | us :: l => by
    have ih := calls_le_entries l
    have e : (pairsOf (us :: l).flatten).filter (fun e => e.2 ≠ 0) =
        (pairsOf us).filter (fun e => e.2 ≠ 0) ++ (pairsOf l.flatten).filter (fun e => e.2 ≠ 0) := by
      simp [pairsOf, List.filter_append]
    rw [e, List.length_append, List.filter_cons]
    split
    · rename_i hu
      obtain ⟨u, hm, h0⟩ := List.any_eq_true.mp hu
      have : (u.pfx, u.highSeq) ∈ (pairsOf us).filter (fun e => e.2 ≠ 0) :=
        List.mem_filter.mpr ⟨List.mem_map.mpr ⟨u, hm, rfl⟩, by simpa using h0⟩
      have := List.length_pos_of_mem this
      rw [List.length_cons]
      omega
    · omega

/-- C124, the calls: the update callback is called with a number other than 0 at most as often as publishName and addSubscription are. -/
theorem c124_calls (h : PSRun pc cc P C what len) (hm : Matching pc cc) (hr : Regular pc P what len)
    (hrem : ∀ k < len, ∀ op, what k = .cons op → ∀ p, Cons.Call.removeSubscription p ∉ callsIn op) (n : Nat) (hn : n ≤ len) :
    ((updateCalls (C n).log).filter (fun us => us.any (fun u => u.highSeq ≠ 0))).length ≤
      (publishCalls what n).length + (subscribeCalls what n).length :=
  le_trans (calls_le_entries _) (c124_bound h hm hr hrem n hn)

end

set_option maxRecDepth 100000 in
/-- Non-vacuity for C124: two publications and two subscriptions, and one call of the update callback with two entries. -/
example : ∃ (P : Nat → Part) (C : Nat → Cons) (what : Nat → PSEv),
    PSRun sampleCfg sampleCCfg P C what 10 ∧ Matching sampleCfg sampleCCfg ∧ Regular sampleCfg P what 10 ∧
      (∀ k < 10, ∀ op, what k = .cons op → ∀ p, Cons.Call.removeSubscription p ∉ callsIn op) ∧
      updateCalls (C 10).log = [[⟨pA, 1, 1, 0⟩, ⟨pB, 1, 1, 0⟩]] ∧ toldPairs (C 10).log = [(pA, 1), (pB, 1)] ∧
      publishCalls what 10 = [pA, pB] ∧ subscribeCalls what 10 = [(pA, 0), (pB, 0)] := by
  have hx : ((psrun sampleCfg sampleCCfg bothScript).map fun r =>
      regularB r 10 [(pA, 1), (pB, 1)] &&
      decide (updateCalls (psat r 10).2.log = [[⟨pA, 1, 1, 0⟩, ⟨pB, 1, 1, 0⟩]]) &&
      decide (publishCalls (pswhat r) 10 = [pA, pB]) && decide (subscribeCalls (pswhat r) 10 = [(pA, 0), (pB, 0)]) &&
      (List.range 10).all (fun k => match pswhat r k with
        | .cons op => (callsIn op).all (fun c => match c with
          | .removeSubscription _ => false
          | _ => true)
        | _ => true)) = some true := by decide +kernel
  obtain ⟨r, hr, hb⟩ := Option.of_map hx
  simp only [Bool.and_eq_true, decide_eq_true_eq] at hb
  obtain ⟨⟨⟨⟨h1, h2⟩, h3⟩, h4⟩, h5⟩ := hb
  refine ⟨_, _, _, psrun_sound hr, sample_matching, regular_of h1 (by decide) (by decide +kernel), fun k hk op hw p hp => ?_, h2, ?_, h3, h4⟩
  · have := List.all_eq_true.mp h5 k (List.mem_range.mpr hk)
    rw [hw] at this
    have := List.all_eq_true.mp this _ hp
    simp at this
  · unfold toldPairs
    rw [h2]
    rfl

/-- Non-vacuity for C124: the bound is reached by a subscription that asks for a call. -/
example : (Res.bind (Cons.init sampleCCfg) fun s => Cons.run sampleCCfg s [.call (.addSubscription pA 5 true),
    .call (.addSubscription pA 7 true)]).get?.map (fun s => toldPairs s.log) = some [(pA, 5)] := by decide +kernel

/-- C124 needs that the application does not unsubscribe: otherwise a number can be reported once more. -/
example : (Res.bind (Cons.init sampleCCfg) fun s => Cons.run sampleCCfg s [.call (.addSubscription pA 5 true),
    .call (.removeSubscription pA), .call (.addSubscription pA 5 true)]).get?.map (fun s => toldPairs s.log) =
    some [(pA, 5), (pA, 5)] := by decide +kernel

end PSync
