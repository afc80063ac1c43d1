import Verif.Props.Told
import Verif.Proofs.Examples
/-!
C120: each callback of a consumer describes one moment of the producer.
-/
namespace PSync
open Spec

/-- The map is the producer's list of prefixes and numbers at one moment before event `n`. -/
def Spec.SnapshotOf (P : Nat → Part) (n : Nat) (m : NMap Nat) : Prop := ∃ r ≤ n, ∀ p, m.find p = (P r).base.getSeqNo p

/-- All highest numbers of an update are the producer's at one moment before event `n`. -/
def Spec.OneMoment (P : Nat → Part) (n : Nat) (us : List MissingDataInfo) : Prop :=
  ∃ r ≤ n, ∀ u ∈ us, (P r).base.getSeqNo u.pfx = some u.highSeq

namespace Cons

variable {cc : CCfg} {H : NMap Nat → Prop} {U : List MissingDataInfo → Prop}

/-- What the callbacks were given. -/
structure Gave (H : NMap Nat → Prop) (U : List MissingDataInfo → Prop) (s : Cons) : Prop where
  hel : ∀ m : NMap Nat, Out.hello m ∈ s.log → H m
  upd : ∀ us, Out.update us ∈ s.log → U us

theorem Gave.mono {H' : NMap Nat → Prop} {U' : List MissingDataInfo → Prop} {s : Cons} (h : Gave H U s) (h1 : ∀ m, H m → H' m)
    (h2 : ∀ us, U us → U' us) : Gave H' U' s := ⟨fun m hm => h1 m (h.hel m hm), fun us hu => h2 us (h.upd us hu)⟩

theorem Gave.same {s s' : Cons} (h : Gave H U s) (h2 : s'.log = s.log) : Gave H U s' :=
  ⟨fun m hm => h.hel m (h2 ▸ hm), fun us hu => h.upd us (h2 ▸ hu)⟩

theorem Gave.ask {s s' : Cons} (h : Gave H U s) {n : Name} {t : Nat} (h2 : s'.log = s.log ++ [.interest n t]) : Gave H U s' :=
  ⟨fun m hm => h.hel m (by rw [h2] at hm; simpa using hm), fun us hu => h.upd us (by rw [h2] at hu; simpa using hu)⟩

theorem Gave.tell {s s' : Cons} (h : Gave H U s) {us : List MissingDataInfo} (hu : U us) (h2 : s'.log = s.log ++ [.update us]) : Gave H U s' :=
  ⟨fun m hm => h.hel m (by rw [h2] at hm; simpa using hm), fun us' hu' => by
    rw [h2] at hu'
    rcases List.mem_append.mp hu' with hu' | hu'
    · exact h.upd us' hu'
    · cases List.mem_singleton.mp hu'; exact hu⟩

theorem Gave.offer {s s' : Cons} (h : Gave H U s) {m : NMap Nat} (hm : H m) (h2 : s'.log = s.log ++ [.hello m]) : Gave H U s' :=
  ⟨fun m' hm' => by
    rw [h2] at hm'
    rcases List.mem_append.mp hm' with hm' | hm'
    · exact h.hel m' hm'
    · cases List.mem_singleton.mp hm'; exact hm, fun us hu => h.upd us (by rw [h2] at hu; simpa using hu)⟩

theorem Gave.sendSync {s s' : Cons} (h : Gave H U s) (hs : s.sendSyncInterest cc = .ok s') : Gave H U s' := by
  obtain ⟨_, cs, _, rfl⟩ := sendSyncInterest_ok hs
  exact h.ask rfl

theorem Gave.call {s s' : Cons} (h : Gave H U s) {c : Call}
    (hc : ∀ p q cb, c = .addSubscription p q cb → q % U64 ≠ 0 → U [⟨p, q % U64, q % U64, 0⟩]) (hs : Cons.call cc s c = .ok s') : Gave H U s' := by
  cases c with
  | addSubscription p q cb =>
    simp only [Cons.call, Res.bind_eq_ok, Res.ok.injEq] at hs
    obtain ⟨⟨r, s1⟩, h1, rfl⟩ := hs
    unfold addSubscription at h1
    split at h1
    · cases h1; exact h
    · simp only [Res.bind_eq_ok, Res.ok.injEq, Prod.mk.injEq] at h1
      obtain ⟨bf, _, _, rfl⟩ := h1
      split
      · rename_i hcb
        simp only [Bool.and_eq_true, decide_eq_true_eq] at hcb
        exact h.tell (hc p q cb rfl hcb.2) rfl
      · exact h.same rfl
  | removeSubscription p =>
    simp only [Cons.call, Res.bind_eq_ok, Res.ok.injEq] at hs
    obtain ⟨⟨r, s1⟩, h1, rfl⟩ := hs
    rcases removeSubscription_ok h1 with ⟨_, _, rfl⟩ | ⟨hx, _, bf, hbf, rfl⟩
    · exact h
    · exact h.same rfl
  | sendHello => simp only [Cons.call, Res.ok.injEq] at hs; subst hs; exact h.ask rfl
  | sendSync => exact h.sendSync hs
  | stop => simp only [Cons.call, Res.ok.injEq] at hs; subst hs; exact h.same rfl

theorem Gave.calls {cs : List Call} {s s' : Cons} (h : Gave H U s)
    (hc : ∀ p q cb, Call.addSubscription p q cb ∈ cs → q % U64 ≠ 0 → U [⟨p, q % U64, q % U64, 0⟩]) (hs : foldRes (Cons.call cc) s cs = .ok s') : Gave H U s' :=
  foldRes_inv (P := Gave H U) cs (fun _ _ _ hm hi h1 => hi.call (fun p q cb e => hc p q cb (e ▸ hm)) h1) h hs

theorem Gave.onHello {s s' : Cons} (h : Gave H U s) {buf : Bytes} {a1 a2 : List Call}
    (hb : ∀ st, StateMsg.wireDecode buf = .ok st → ∀ r, foldRes (helloStep s.subs) (s.prefixes, [], []) st.content = .ok r →
      H r.2.2 ∧ U r.2.1)
    (hc : ∀ p q cb, Call.addSubscription p q cb ∈ a1 ++ a2 → q % U64 ≠ 0 → U [⟨p, q % U64, q % U64, 0⟩]) (hs : onHelloData cc s buf a1 a2 = .ok s') :
    Gave H U s' := by
  unfold onHelloData at hs
  simp only [Res.bind_eq_ok] at hs
  obtain ⟨st, hst, r, hr, s1, k1, k2⟩ := hs
  obtain ⟨t1, t2⟩ := hb st hst r hr
  have h0 : Gave H U ({ s with iblt := s.helloDataName.drop (s.helloDataName.length - 1), prefixes := r.1 }.emit (.hello r.2.2)) :=
    h.offer t1 rfl
  have h1 := h0.calls (fun p q cb hm => hc p q cb (List.mem_append_left _ hm)) k1
  split at k2
  · cases k2; exact h1
  · exact Gave.calls (s := s1.emit (.update r.2.1)) (h1.tell t2 rfl) (fun p q cb hm => hc p q cb (List.mem_append_right _ hm)) k2

theorem Gave.onSync {s s' : Cons} (h : Gave H U s) {buf : Bytes} {a : List Call}
    (hb : ∀ st, StateMsg.wireDecode buf = .ok st → ∀ r, foldRes syncStep (s.prefixes, []) st.content = .ok r → U r.2)
    (hc : ∀ p q cb, Call.addSubscription p q cb ∈ a → q % U64 ≠ 0 → U [⟨p, q % U64, q % U64, 0⟩]) (hs : onSyncData cc s buf a = .ok s') : Gave H U s' := by
  unfold onSyncData at hs
  simp only [Res.bind_eq_ok] at hs
  obtain ⟨st, hst, r, hr, s1, k1, k2⟩ := hs
  refine Gave.sendSync ?_ k2
  split at k1
  · cases k1; exact h.same rfl
  · have h0 : Gave H U ({ s with iblt := s.syncDataName.drop (s.syncDataName.length - 1), prefixes := r.1 }.emit (.update r.2)) :=
      h.tell (hb st hst r hr) rfl
    exact h0.calls hc k1

/-- One event. -/
theorem Gave.step {s s' : Cons} (h : Gave H U s) {op : Op}
    (hhello : ∀ buf a1 a2, op = .helloComplete buf a1 a2 → s.helloFetcher = some true →
      ∀ st, StateMsg.wireDecode buf = .ok st → ∀ r, foldRes (helloStep s.subs) (s.prefixes, [], []) st.content = .ok r → H r.2.2 ∧ U r.2.1)
    (hsync : ∀ buf a, op = .syncComplete buf a → s.syncFetcher = some true → s.contentType ≠ .nack →
      ∀ st, StateMsg.wireDecode buf = .ok st → ∀ r, foldRes syncStep (s.prefixes, []) st.content = .ok r → U r.2)
    (hc : ∀ p q cb, Call.addSubscription p q cb ∈ callsIn op → q % U64 ≠ 0 → U [⟨p, q % U64, q % U64, 0⟩]) (hs : step cc s op = .ok s') : Gave H U s' := by
  cases op with
  | call c => exact h.call (fun p q cb e => hc p q cb (by simp [callsIn, e])) hs
  | helloSegment d =>
    simp only [Cons.step] at hs
    split at hs <;> cases hs
    · split
      · exact h.same rfl
      · exact h
    · exact h
  | helloComplete buf a1 a2 =>
    simp only [Cons.step] at hs
    split at hs
    · rename_i hf
      exact (h.same (s' := { s with helloFetcher := some false }) rfl).onHello (hhello buf a1 a2 rfl hf) hc hs
    · cases hs; exact h
  | helloError =>
    simp only [Cons.step] at hs
    split at hs <;> cases hs
    · exact h.same rfl
    · exact h
  | syncSegment d =>
    simp only [Cons.step] at hs
    split at hs
    · simp only [Res.ok.injEq] at hs
      obtain ⟨s1, e2, hs⟩ : ∃ s1 : Cons, s1.log = s.log ∧ (if s1.contentType = .nack then s1.sendHelloInterest cc else s1) = s' :=
        ⟨_, by split <;> rfl, hs⟩
      have h1 := h.same e2
      split at hs <;> subst hs
      · exact h1.ask rfl
      · exact h1
    · cases hs; exact h
  | syncComplete buf a =>
    simp only [Cons.step] at hs
    split at hs
    · rename_i hf
      split at hs
      · cases hs; exact h.same rfl
      · rename_i hk
        exact (h.same (s' := { s with syncFetcher := some false }) rfl).onSync (hsync buf a rfl hf hk) hc hs
    · cases hs; exact h
  | syncError t =>
    simp only [Cons.step] at hs
    split at hs
    · split at hs
      · exact (h.same (s' := { s with syncFetcher := some false }) rfl).sendSync hs
      · cases hs; exact h.same rfl
    · cases hs; exact h
  | tick t =>
    simp only [Cons.step, Res.ok.injEq] at hs
    subst hs
    split
    · exact h.same rfl
    · exact h
  | fire =>
    simp only [Cons.step] at hs
    split at hs
    · cases hs; exact h
    · rename_i ts _
      cases hs
      exact (h.same (s' := { s with timers := ts }) rfl).ask rfl
    · rename_i ts _
      exact (h.same (s' := { s with timers := ts }) rfl).sendSync hs

/-- What the hello callback is given lists every announced prefix. -/
theorem offered_all {subs : NMap Unit} {l : List Name} {ps : NMap Nat} {r : NMap Nat × List MissingDataInfo × NMap Nat}
    (h : foldRes (helloStep subs) (ps, [], []) l = .ok r) {n : Name} (hn : n ∈ l) {p : Name} {q : Nat} (ha : announced n = some (p, q)) :
    (r.2.2.find p).isSome := by
  rw [ConsApp.hello_avail h, ConsApp.emplaces_find]
  simp only [NMap.find, Option.none_or, Option.isSome_map, List.find?_isSome, decide_eq_true_eq]
  exact ⟨(p, q), List.mem_filterMap.mpr ⟨n, hn, ha⟩, rfl⟩

end Cons

variable {pc : Cfg} {cc : CCfg} {P : Nat → Part} {C : Nat → Cons} {what : Nat → PSEv} {len : Nat}

theorem Spec.PSRun.gave (h : PSRun pc cc P C what len) (hm : Matching pc cc) (hr : Regular pc P what len) :
    ∀ {n}, n ≤ len → Cons.Gave (SnapshotOf P n)
      (fun us => OneMoment P n us ∨ ∃ p q, us = [⟨p, q, q, 0⟩] ∧ Given what n p q) (C n) := by
  intro n
  induction n with
  | zero =>
    intro _
    have hi := h.initC
    unfold Cons.init at hi
    simp only [Res.bind_eq_ok, Res.ok.injEq] at hi
    obtain ⟨bf, _, e⟩ := hi
    rw [← e]
    exact ⟨fun m hm => by simp at hm, fun us hu => by simp at hu⟩
  | succ n ih =>
    intro hn
    have ih := (ih (by omega)).mono (H' := SnapshotOf P (n + 1))
      (U' := fun us => OneMoment P (n + 1) us ∨ ∃ p q, us = [⟨p, q, q, 0⟩] ∧ Given what (n + 1) p q)
      (fun m ⟨r, h1, h2⟩ => ⟨r, by omega, h2⟩) (by
        rintro us (⟨r, h1, h2⟩ | ⟨p, q, h1, k, hk, hx⟩)
        · exact .inl ⟨r, by omega, h2⟩
        · exact .inr ⟨p, q, h1, k, by omega, hx⟩)
    cases h.step n (by omega) with
    | prod op _ _ hc => rw [hc]; exact ih
    | cons op hw hs hp hsync hhello =>
      have hv := h.earlier (n := n) (by omega)
      have hrn := Spec.Regular.earlier h hr (n := n) (by omega)
      have ann : ∀ {b : Base} {content : List Name}, Tables P n b →
          (∀ n ∈ content, ∃ p x, b.getSeqNo p = some x ∧ n = Name.appendNumber p x) →
          ∀ m ∈ content, ∀ p q, announced m = some (p, q) → b.getSeqNo p = some q := by
        intro b content hb hc m hmem p q ha
        obtain ⟨p', x, h1, rfl⟩ := hc m hmem
        rw [announced_appendNumber p' x (((hv.comparable hrn).inv b hb).lt p' x h1)] at ha
        cases ha
        exact h1
      obtain ⟨_, _, hinv⟩ := (hv.momentC (le_refl _)).inv
      refine ih.step (fun buf a1 a2 e hact st hst r hfold => ?_) (fun buf a e hact hk st hst r hfold => ?_) (fun p q cb hmem _ => ?_) hs
      · obtain ⟨b, c, hb, _, _, rfl, hl, _⟩ := hv.hello_delivered hm hrn (le_refl _) hact (hhello buf a1 a2 e)
        have hc := fun n => helloContent_spec ((hv.comparable hrn).inv b hb) n
        have hdec := hv.decoded hrn hb (fun n hn => (hc n).mp hn) hl hst
        rw [hdec] at hfold
        obtain ⟨_, t2, t3⟩ := Cons.told_hello (T := fun p q => b.getSeqNo p = some q) (A := fun _ _ => True)
          (ann hb (fun n hn => (hc n).mp hn)) hinv.sub (fun _ _ _ => .inr trivial) hfold
        have all : ∀ p, r.2.2.find p = b.getSeqNo p := by
          intro p
          cases hx : b.getSeqNo p with
          | none =>
            cases hy : r.2.2.find p with
            | none => rfl
            | some y => rw [t3 p y hy] at hx; cases hx
          | some x =>
            have := Cons.offered_all hfold ((hc _).mpr ⟨p, x, hx, rfl⟩)
              (announced_appendNumber p x (((hv.comparable hrn).inv b hb).lt p x hx))
            obtain ⟨y, hy⟩ := Option.isSome_iff_exists.mp this
            rw [hy, ← hx, t3 p y hy]
        obtain ⟨k, hk, rfl⟩ := hb
        exact ⟨⟨k, by omega, all⟩, .inl ⟨k, by omega, t2⟩⟩
      · have hd := hsync buf a e
        obtain ⟨m, hmn, name, segs, h1, h2, h3, h4, h5⟩ := id hd
        obtain ⟨bf, b0, hf, _⟩ := hv.last_fields hm hrn (le_refl _) h3
        obtain ⟨b, c, content, hb, _, _, rfl, hl, hnames, _⟩ := hv.sync_delivered hm hrn (le_refl _) hact hk hd h3 hf
        rw [hv.decoded hrn hb hnames hl hst] at hfold
        obtain ⟨_, t2⟩ := Cons.told_sync (T := fun p q => b.getSeqNo p = some q) (A := fun _ _ => True)
          (ann hb hnames) (fun _ _ _ => .inr trivial) hfold
        obtain ⟨k, hk, rfl⟩ := hb
        exact .inl ⟨k, by omega, t2⟩
      · exact .inr ⟨p, q % U64, rfl, n, by omega, op, q, cb, hw, hmem, rfl⟩

/-- C120, the hello callback: it is given exactly the list of prefixes and numbers that the producer had at one moment: no prefix is left out,
none is added, and no two moments are mixed. -/
theorem c120_snapshot (h : PSRun pc cc P C what len) (hm : Matching pc cc) (hr : Regular pc P what len) (n : Nat) (hn : n ≤ len)
    (m : NMap Nat) (hl : Out.hello m ∈ (C n).log) : SnapshotOf P n m :=
  (h.gave hm hr hn).hel m hl

/-- C120, the update callback: the highest numbers of one call are the producer's at one moment, or the call is the one that the application
asked for when it subscribed. -/
theorem c120_one_moment (h : PSRun pc cc P C what len) (hm : Matching pc cc) (hr : Regular pc P what len) (n : Nat) (hn : n ≤ len)
    (us : List MissingDataInfo) (hl : Out.update us ∈ (C n).log) :
    OneMoment P n us ∨ ∃ p q, us = [⟨p, q, q, 0⟩] ∧ Given what n p q :=
  (h.gave hm hr hn).upd us hl

/-- A consumer subscribes to two prefixes, both are published, then it says hello. -/
def bothScript : List Act := [.prod (.addUserNode pA), .prod (.addUserNode pB), .cons (.call (.addSubscription pA 0 false)),
  .cons (.call (.addSubscription pB 0 false)), .prod (.publishName pA none), .prod (.publishName pB none), .cons (.call .sendHello), .ask,
  .helloPkt, .helloDone [] []]

set_option maxRecDepth 100000 in
/-- Non-vacuity for C120: the hello callback is given both prefixes with their numbers, and the update callback reports both in one call. -/
example : ∃ (P : Nat → Part) (C : Nat → Cons) (what : Nat → PSEv),
    PSRun sampleCfg sampleCCfg P C what 10 ∧ Matching sampleCfg sampleCCfg ∧ Regular sampleCfg P what 10 ∧
      Out.hello [(pA, 1), (pB, 1)] ∈ (C 10).log ∧ Out.update [⟨pA, 1, 1, 0⟩, ⟨pB, 1, 1, 0⟩] ∈ (C 10).log ∧
      (P 5).base.getSeqNo pB = some 0 := by
  have hx : ((psrun sampleCfg sampleCCfg bothScript).map fun r =>
      regularB r 10 [(pA, 1), (pB, 1)] &&
      (psat r 10).2.log.any (fun o => decide (o = .hello [(pA, 1), (pB, 1)])) &&
      (psat r 10).2.log.any (fun o => decide (o = .update [⟨pA, 1, 1, 0⟩, ⟨pB, 1, 1, 0⟩])) &&
      decide ((psat r 5).1.base.getSeqNo pB = some 0)) = some true := by decide +kernel
  obtain ⟨r, hr, hb⟩ := Option.of_map hx
  simp only [Bool.and_eq_true, decide_eq_true_eq, List.any_eq_true] at hb
  obtain ⟨⟨⟨h1, o1, h2, rfl⟩, o2, h3, rfl⟩, h4⟩ := hb
  exact ⟨_, _, _, psrun_sound hr, sample_matching, regular_of h1 (by decide) (by decide +kernel), h2, h3, h4⟩

end PSync
