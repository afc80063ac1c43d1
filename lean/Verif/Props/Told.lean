import Verif.Proofs.Told
import Verif.Props.PubSub
/-!
Property C75: a subscriber is told only what was published.
-/
namespace PSync
open Spec

variable {pc : Cfg} {cc : CCfg} {P : Nat → Part} {C : Nat → Cons} {what : Nat → PSEv} {len : Nat}

/-- Only publishName raises a number. -/
theorem Part.raises {cfg : Cfg} {s s' : Part} {op : Part.Op} (h : Part.step cfg s op = .ok s') {p : Name} {q : Nat} (hq : q ≠ 0)
    (h1 : s.base.getSeqNo p ≠ some q) (h2 : s'.base.getSeqNo p = some q) : ∃ seq, op = .publishName p seq := by
  have same : s'.base = s.base → ∃ seq, op = .publishName p seq := fun e => absurd (e ▸ h2) h1
  cases op with
  | publishName p' seq =>
    by_cases hp : p' = p
    · exact ⟨seq, by rw [hp]⟩
    · rcases Part.publishName_ok (show Part.publishName cfg s p' seq = .ok s' from h) with ⟨_, rfl⟩ | ⟨cur, b, hc, hb, _, e⟩
      · exact absurd h2 h1
      · have hs' : s'.base = b := by
          rw [e]
        rw [hs', Base.getSeqNo, Base.find_updateSeqNo hb, if_neg hp] at h2
        exact absurd h2 h1
  | addUserNode p' =>
    simp only [Part.step, Res.ok.injEq] at h
    subst h
    rw [Base.getSeqNo, Base.find_addUserNode] at h2
    split at h2
    · rename_i he
      subst he
      cases hx : s.base.prefixes.find p' with
      | none => rw [hx] at h2; simp at h2; omega
      | some x => rw [hx] at h2; simp at h2; subst h2; exact absurd hx h1
    · exact absurd h2 h1
  | removeUserNode p' =>
    simp only [Part.step, Res.bind_eq_ok, Res.ok.injEq] at h
    obtain ⟨b, hb, rfl⟩ := h
    rw [Base.getSeqNo, (Base.removeUserNode_ok hb).1, NMap.find_erase] at h2
    split at h2
    · cases h2
    · exact absurd h2 h1
  | recvInterest i =>
    simp only [Part.step] at h
    split at h
    · exact same (Part.onHelloInterest_base h)
    · split at h
      · exact same (Part.onSyncInterest_base h)
      · cases h; exact same rfl
  | tick t =>
    simp only [Part.step, Res.ok.injEq] at h
    subst h
    exact same (by split <;> rfl)
  | expire name =>
    simp only [Part.step] at h
    split at h
    · split at h
      · split at h <;> cases h <;> exact same rfl
      · cases h; exact same rfl
    · cases h; exact same rfl
  | fireStore => simp only [Part.step, Res.ok.injEq] at h; subst h; exact same rfl

/-- A number of the producer other than 0 was published. -/
theorem Spec.Was.published (h : PSRun pc cc P C what len) {n : Nat} (hn : n ≤ len) {p : Name} {q : Nat} (hq : q ≠ 0)
    (hw : Was P n p q) : PublishedAs P what n p q := by
  obtain ⟨r, hr, hx⟩ := hw
  induction r with
  | zero => rw [h.initP] at hx; simp [Part.init, Base.getSeqNo, Base.new] at hx
  | succ r ih =>
    by_cases hp : (P r).base.getSeqNo p = some q
    · exact ih (by omega) hp
    · cases h.step r (by omega) with
      | prod op hwh hs _ =>
        obtain ⟨seq, rfl⟩ := Part.raises hs hq hp hx
        exact ⟨r, by omega, seq, hwh, hp, hx⟩
      | cons op _ _ hc _ _ => rw [hc] at hx; exact absurd hx hp

/-- C75, the hello callback: what it offers are numbers the producer had. -/
theorem c75_offered (h : PSRun pc cc P C what len) (hm : Matching pc cc) (hr : Regular pc P what len) (n : Nat) (hn : n ≤ len)
    (m : NMap Nat) (hl : Out.hello m ∈ (C n).log) (p : Name) (q : Nat) (hq : m.find p = some q) :
    Was P n p q ∧ (q ≠ 0 → PublishedAs P what n p q) :=
  ⟨(h.told hm hr hn).hel m hl p q hq, fun h0 => ((h.told hm hr hn).hel m hl p q hq).published h hn h0⟩

/-- C75, the update callback: the highest number of each entry was published by the producer, or the application itself
gave it when it subscribed. -/
theorem c75_notified (h : PSRun pc cc P C what len) (hm : Matching pc cc) (hr : Regular pc P what len) (n : Nat) (hn : n ≤ len)
    (us : List MissingDataInfo) (hl : Out.update us ∈ (C n).log) (u : MissingDataInfo) (hu : u ∈ us) (h0 : u.highSeq ≠ 0) :
    PublishedAs P what n u.pfx u.highSeq ∨ Given what n u.pfx u.highSeq :=
  ((h.told hm hr hn).upd us hl u hu).imp (fun hw => hw.published h hn h0) id

/-- C75, getSeqNo: the number of a prefix was published by the producer, or the application itself gave it when it
subscribed. -/
theorem c75_known (h : PSRun pc cc P C what len) (hm : Matching pc cc) (hr : Regular pc P what len) (n : Nat) (hn : n ≤ len)
    (p : Name) (y : Nat) (hy : (C n).getSeqNo p = some y) (h0 : y ≠ 0) : PublishedAs P what n p y ∨ Given what n p y :=
  ((h.told hm hr hn).num p y hy).imp (fun hw => hw.published h hn h0) id

/-- C75, no more than there is: as long as the producer does not remove the prefix, a subscriber that gave a number that the
producer had at some time knows no higher number than the producer. -/
theorem c75_not_ahead (h : PSRun pc cc P C what len) (hm : Matching pc cc) (hr : Regular pc P what len) (n : Nat) (hn : n ≤ len)
    (p : Name) (hrem : ∀ k < n, what k ≠ .prod (.removeUserNode p)) (hgiven : ∀ q, Given what n p q → q = 0 ∨ Was P n p q)
    (y : Nat) (hy : (C n).getSeqNo p = some y) (x : Nat) (hx : (P n).base.getSeqNo p = some x) : y ≤ x := by
  have key : Was P n p y → y ≤ x := by
    rintro ⟨r, hle, hw⟩
    have : ∀ k, r ≤ k → k ≤ n → ∃ z, (P k).base.getSeqNo p = some z ∧ y ≤ z := by
      intro k hk
      induction k, hk using Nat.le_induction with
      | base => exact fun _ => ⟨y, hw, le_refl _⟩
      | succ k hk ih =>
        intro hkn
        obtain ⟨z, h1, h2⟩ := ih (by omega)
        cases h.step k (by omega) with
        | prod op hwh hs _ =>
          obtain ⟨z', h3, h4⟩ := (Part.step_steps hs).mono_seq (p := p) (by
            intro hro
            cases op <;> simp only [Part.Op.Removes] at hro
            subst hro
            exact hrem k (by omega) hwh) h1
          exact ⟨z', h3, by omega⟩
        | cons op _ _ hc _ _ => rw [hc]; exact ⟨z, h1, h2⟩
    obtain ⟨z, h1, h2⟩ := this n hle (le_refl _)
    rw [hx, Option.some.injEq] at h1
    omega
  rcases (h.told hm hr hn).num p y hy with hw | hg
  · exact key hw
  · rcases hgiven y hg with rfl | hw
    · omega
    · exact key hw

set_option maxRecDepth 100000 in
/-- Non-vacuity for C75: in the run of C45's example the hello callback offers /a and /b with 0, the update callback
reports /a's number 1, and the consumer knows it.  In event 9 the producer published /a. -/
example : ∃ (P : Nat → Part) (C : Nat → Cons) (what : Nat → PSEv),
    PSRun sampleCfg sampleCCfg P C what 14 ∧ Matching sampleCfg sampleCCfg ∧ Regular sampleCfg P what 14 ∧
      (∃ m : NMap Nat, Out.hello m ∈ (C 14).log ∧ m.find pB = some 0) ∧
      (∃ u, Out.update [u] ∈ (C 14).log ∧ u.pfx = pA ∧ u.highSeq = 1) ∧ (C 14).getSeqNo pA = some 1 ∧
      what 9 = .prod (.publishName pA none) ∧ (P 9).base.getSeqNo pA = some 0 ∧ (P 10).base.getSeqNo pA = some 1 := by
  have hx : ((psrun sampleCfg sampleCCfg steadyScript).map fun r =>
      regularB r 14 [(pA, 1), (pB, 1)] &&
      (psat r 14).2.log.any (fun o => decide (o = .hello [(pA, 0), (pB, 0)])) &&
      (psat r 14).2.log.any (fun o => decide (o = .update [⟨pA, 1, 1, 0⟩])) &&
      decide ((psat r 14).2.getSeqNo pA = some 1) && decide (pswhat r 9 = .prod (.publishName pA none)) &&
      decide ((psat r 9).1.base.getSeqNo pA = some 0) && decide ((psat r 10).1.base.getSeqNo pA = some 1)) = some true := by decide +kernel
  obtain ⟨r, hr, hb⟩ := Option.of_map hx
  simp only [Bool.and_eq_true, decide_eq_true_eq, List.any_eq_true] at hb
  obtain ⟨⟨⟨⟨⟨⟨h1, o1, h2, rfl⟩, o2, h3, rfl⟩, h4⟩, h5⟩, h6⟩, h7⟩ := hb
  exact ⟨_, _, _, psrun_sound hr, sample_matching, regular_of h1 (by decide) (by decide +kernel),
    ⟨_, h2, by decide +kernel⟩, ⟨_, h3, rfl, rfl⟩, h4, h5, h6, h7⟩

end PSync
