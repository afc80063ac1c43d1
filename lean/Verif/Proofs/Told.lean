import Verif.Props.PubSubSafe
import Verif.Spec.Told
/-!
Where the numbers come from that a consumer knows and reports.
-/
namespace PSync
open Spec

namespace Cons

variable {cc : CCfg} {T A : Name → Nat → Prop}

/-- Numbers known and reported are in `T` or in `A`; those offered in the hello callback are in `T`. -/
structure Told (T A : Name → Nat → Prop) (s : Cons) : Prop where
  num : ∀ p y, s.getSeqNo p = some y → T p y ∨ A p y
  upd : ∀ us, Out.update us ∈ s.log → ∀ u ∈ us, T u.pfx u.highSeq ∨ A u.pfx u.highSeq
  hel : ∀ m : NMap Nat, Out.hello m ∈ s.log → ∀ p q, m.find p = some q → T p q

theorem Told.mono {T' A' : Name → Nat → Prop} {s : Cons} (h : Told T A s) (h1 : ∀ p q, T p q → T' p q) (h2 : ∀ p q, A p q → A' p q) :
    Told T' A' s :=
  ⟨fun p y hy => (h.num p y hy).imp (h1 p y) (h2 p y), fun us hu u hm => (h.upd us hu u hm).imp (h1 _ _) (h2 _ _),
    fun m hm p q hq => h1 p q (h.hel m hm p q hq)⟩

/-- Nothing is learnt and nothing is reported. -/
theorem Told.quiet {s s' : Cons} (h : Told T A s) (h1 : ∀ p y, s'.getSeqNo p = some y → s.getSeqNo p = some y)
    (h2 : ∀ us, Out.update us ∈ s'.log → Out.update us ∈ s.log) (h3 : ∀ m, Out.hello m ∈ s'.log → Out.hello m ∈ s.log) : Told T A s' :=
  ⟨fun p y hy => h.num p y (h1 p y hy), fun us hu => h.upd us (h2 us hu), fun m hm => h.hel m (h3 m hm)⟩

theorem Told.same {s s' : Cons} (h : Told T A s) (h1 : s'.prefixes = s.prefixes) (h2 : s'.log = s.log) : Told T A s' :=
  h.quiet (fun p y hy => by unfold getSeqNo at hy ⊢; rwa [h1] at hy) (fun us hu => h2 ▸ hu) (fun m hm => h2 ▸ hm)

theorem Told.sendHello {s : Cons} (h : Told T A s) : Told T A (s.sendHelloInterest cc) :=
  h.quiet (fun _ _ hy => hy) (fun us hu => by simpa [sendHelloInterest] using hu) (fun m hm => by simpa [sendHelloInterest] using hm)

theorem Told.sendSync {s s' : Cons} (h : Told T A s) (hs : s.sendSyncInterest cc = .ok s') : Told T A s' := by
  obtain ⟨_, cs, _, rfl⟩ := sendSyncInterest_ok hs
  exact h.quiet (fun _ _ hy => hy) (fun us hu => by simpa using hu) (fun m hm => by simpa using hm)

theorem Told.call {s s' : Cons} (h : Told T A s) {c : Call} (hc : ∀ p q cb, c = .addSubscription p q cb → A p (q % U64))
    (hs : Cons.call cc s c = .ok s') : Told T A s' := by
  cases c with
  | addSubscription p q cb =>
    have ha := hc p q cb rfl
    simp only [Cons.call, Res.bind_eq_ok, Res.ok.injEq] at hs
    obtain ⟨⟨r, s1⟩, h1, rfl⟩ := hs
    unfold addSubscription at h1
    split at h1
    · cases h1; exact h
    · simp only [Res.bind_eq_ok, Res.ok.injEq, Prod.mk.injEq] at h1
      obtain ⟨bf, _, _, rfl⟩ := h1
      have key : ∀ s2 : Cons, s2.prefixes = s.prefixes.set p (q % U64) →
          (s2.log = s.log ∨ s2.log = s.log ++ [.update [⟨p, q % U64, q % U64, 0⟩]]) → Told T A s2 := by
        intro s2 e1 e2
        refine ⟨fun p' y hy => ?_, fun us hu u hm => ?_, fun m hm => ?_⟩
        · unfold getSeqNo at hy
          rw [e1, NMap.find_set] at hy
          split at hy
          · rename_i he
            subst he
            simp only [Option.some.injEq] at hy
            subst hy
            exact .inr ha
          · exact h.num p' y hy
        · rcases e2 with e2 | e2
          · exact h.upd us (e2 ▸ hu) u hm
          · rw [e2] at hu
            rcases List.mem_append.mp hu with hu | hu
            · exact h.upd us hu u hm
            · simp only [List.mem_singleton, Out.update.injEq] at hu
              subst hu
              rw [List.mem_singleton] at hm
              subst hm
              exact .inr ha
        · rcases e2 with e2 | e2
          · exact h.hel m (e2 ▸ hm)
          · exact h.hel m (by rw [e2] at hm; simpa using hm)
      split
      · exact key _ rfl (.inr rfl)
      · exact key _ rfl (.inl rfl)
  | removeSubscription p =>
    simp only [Cons.call, Res.bind_eq_ok, Res.ok.injEq] at hs
    obtain ⟨⟨r, s1⟩, h1, rfl⟩ := hs
    rcases removeSubscription_ok h1 with ⟨_, _, rfl⟩ | ⟨hx, _, bf, hbf, rfl⟩
    · exact h
    · refine h.quiet (fun p' y hy => ?_) (fun _ hu => hu) (fun _ hm => hm)
      simp only [getSeqNo, NMap.find_erase] at hy
      split at hy
      · simp at hy
      · exact hy
  | sendHello => simp only [Cons.call, Res.ok.injEq] at hs; subst hs; exact h.sendHello
  | sendSync => exact h.sendSync hs
  | stop => simp only [Cons.call, Res.ok.injEq] at hs; subst hs; exact h.same rfl rfl

theorem Told.calls {cs : List Call} {s s' : Cons} (h : Told T A s) (hc : ∀ p q cb, Call.addSubscription p q cb ∈ cs → A p (q % U64))
    (hs : foldRes (Cons.call cc) s cs = .ok s') : Told T A s' :=
  foldRes_inv (P := Told T A) cs (fun _ _ _ hm hi h1 => hi.call (fun p q cb e => hc p q cb (e ▸ hm)) h1) h hs

/-- Reading a hello content with numbers in `T`. -/
theorem told_hello {subs : NMap Unit} {l : List Name} {ps : NMap Nat} {r : NMap Nat × List MissingDataInfo × NMap Nat}
    (hl : ∀ n ∈ l, ∀ p q, announced n = some (p, q) → T p q) (hk : ∀ p, (subs.find p).isSome → (ps.find p).isSome)
    (hp : ∀ p y, ps.find p = some y → T p y ∨ A p y) (h : foldRes (helloStep subs) (ps, [], []) l = .ok r) :
    (∀ p y, r.1.find p = some y → T p y ∨ A p y) ∧ (∀ u ∈ r.2.1, T u.pfx u.highSeq) ∧ ∀ p q, r.2.2.find p = some q → T p q := by
  have := foldRes_inv (P := fun r : NMap Nat × List MissingDataInfo × NMap Nat =>
    (∀ p, (subs.find p).isSome → (r.1.find p).isSome) ∧ (∀ p y, r.1.find p = some y → T p y ∨ A p y) ∧
      (∀ u ∈ r.2.1, T u.pfx u.highSeq) ∧ ∀ p q, r.2.2.find p = some q → T p q) l (by
        rintro b n b' hn ⟨i1, i2, i3, i4⟩ hst
        obtain ⟨p, q, ha, _, hav, hor⟩ := helloStep_ok i1 hst
        have ht := hl n hn p q ha
        have hav' : ∀ p' q', b'.2.2.find p' = some q' → T p' q' := by
          intro p' q' hq
          rw [hav, NMap.find_emplace] at hq
          split at hq
          · rename_i he
            subst he
            cases hb : NMap.find b.2.2 p with
            | none => rw [hb] at hq; simp at hq; subst hq; exact ht
            | some z => rw [hb] at hq; simp at hq; subst hq; exact i4 p z hb
          · exact i4 p' q' hq
        rcases hor with ⟨c, _, _, _, j4, j5⟩ | ⟨_, j4, j5⟩
        · refine ⟨fun p' hp' => ?_, fun p' y hy => ?_, fun u hu => ?_, hav'⟩
          · rw [j4, NMap.find_set]; split
            · rfl
            · exact i1 p' hp'
          · rw [j4, NMap.find_set] at hy
            split at hy
            · rename_i he
              subst he
              simp only [Option.some.injEq] at hy
              subst hy
              exact .inl ht
            · exact i2 p' y hy
          · rw [j5] at hu
            rcases List.mem_append.mp hu with hu | hu
            · exact i3 u hu
            · rw [List.mem_singleton] at hu; subst hu; exact ht
        · rw [j4, j5]; exact ⟨i1, i2, i3, hav'⟩) (s := (ps, [], [])) ⟨hk, hp, by simp, by simp⟩ h
  exact this.2

/-- Reading a sync content with numbers in `T`. -/
theorem told_sync {l : List Name} {ps : NMap Nat} {r : NMap Nat × List MissingDataInfo}
    (hl : ∀ n ∈ l, ∀ p q, announced n = some (p, q) → T p q)
    (hp : ∀ p y, ps.find p = some y → T p y ∨ A p y) (h : foldRes syncStep (ps, []) l = .ok r) :
    (∀ p y, r.1.find p = some y → T p y ∨ A p y) ∧ ∀ u ∈ r.2, T u.pfx u.highSeq := by
  refine foldRes_inv (P := fun r : NMap Nat × List MissingDataInfo =>
    (∀ p y, r.1.find p = some y → T p y ∨ A p y) ∧ ∀ u ∈ r.2, T u.pfx u.highSeq) l (by
      rintro b n b' hn ⟨i1, i2⟩ hst
      obtain ⟨p, q, ha, _, hor⟩ := syncStep_ok hst
      have ht := hl n hn p q ha
      have key : ∀ lo, (∀ p' y, (b.1.set p q).find p' = some y → T p' y ∨ A p' y) ∧
          ∀ u ∈ b.2 ++ [(⟨p, lo, q, 0⟩ : MissingDataInfo)], T u.pfx u.highSeq := by
        intro lo
        refine ⟨fun p' y hy => ?_, fun u hu => ?_⟩
        · rw [NMap.find_set] at hy
          split at hy
          · rename_i he
            subst he
            simp only [Option.some.injEq] at hy
            subst hy
            exact .inl ht
          · exact i1 p' y hy
        · rcases List.mem_append.mp hu with hu | hu
          · exact i2 u hu
          · rw [List.mem_singleton] at hu; subst hu; exact ht
      rcases hor with ⟨_, rfl⟩ | ⟨c, _, _, rfl⟩ | ⟨c, _, _, rfl⟩
      · exact key 1
      · exact key (c + 1)
      · exact ⟨i1, i2⟩) (s := (ps, [])) ⟨hp, by simp⟩ h

theorem Told.onHello {s s' : Cons} (h : Told T A s) (hsub : ∀ p, (s.subs.find p).isSome → (s.prefixes.find p).isSome) {buf : Bytes}
    {a1 a2 : List Call}
    (hb : ∀ st, StateMsg.wireDecode buf = .ok st → ∀ n ∈ st.content, ∀ p q, announced n = some (p, q) → T p q)
    (hc : ∀ p q cb, Call.addSubscription p q cb ∈ a1 ++ a2 → A p (q % U64)) (hs : onHelloData cc s buf a1 a2 = .ok s') : Told T A s' := by
  unfold onHelloData at hs
  simp only [Res.bind_eq_ok] at hs
  obtain ⟨st, hst, r, hr, s1, k1, k2⟩ := hs
  obtain ⟨t1, t2, t3⟩ := told_hello (A := A) (hb st hst) hsub h.num hr
  have h0 : Told T A ({ s with iblt := s.helloDataName.drop (s.helloDataName.length - 1), prefixes := r.1 }.emit (.hello r.2.2)) := by
    refine ⟨t1, fun us hu => h.upd us (by simpa [emit] using hu), fun m hm => ?_⟩
    simp only [emit] at hm
    rcases List.mem_append.mp hm with hm | hm
    · exact h.hel m hm
    · simp only [List.mem_singleton, Out.hello.injEq] at hm
      subst hm
      exact t3
  have h1 := h0.calls (fun p q cb hm => hc p q cb (List.mem_append_left _ hm)) k1
  split at k2
  · cases k2; exact h1
  · have h2 : Told T A (s1.emit (.update r.2.1)) := by
      refine ⟨h1.num, fun us hu u hm => ?_, fun m hm => h1.hel m (by simpa [emit] using hm)⟩
      simp only [emit] at hu
      rcases List.mem_append.mp hu with hu | hu
      · exact h1.upd us hu u hm
      · simp only [List.mem_singleton, Out.update.injEq] at hu
        subst hu
        exact .inl (t2 u hm)
    exact h2.calls (fun p q cb hm => hc p q cb (List.mem_append_right _ hm)) k2

theorem Told.onSync {s s' : Cons} (h : Told T A s) {buf : Bytes} {a : List Call}
    (hb : ∀ st, StateMsg.wireDecode buf = .ok st → ∀ n ∈ st.content, ∀ p q, announced n = some (p, q) → T p q)
    (hc : ∀ p q cb, Call.addSubscription p q cb ∈ a → A p (q % U64)) (hs : onSyncData cc s buf a = .ok s') : Told T A s' := by
  unfold onSyncData at hs
  simp only [Res.bind_eq_ok] at hs
  obtain ⟨st, hst, r, hr, s1, k1, k2⟩ := hs
  obtain ⟨t1, t2⟩ := told_sync (A := A) (hb st hst) h.num hr
  have h0 : Told T A { s with iblt := s.syncDataName.drop (s.syncDataName.length - 1), prefixes := r.1 } := ⟨t1, h.upd, h.hel⟩
  refine Told.sendSync ?_ k2
  split at k1
  · cases k1; exact h0
  · refine Told.calls (s := emit _ (.update r.2)) ?_ hc k1
    refine ⟨h0.num, fun us hu u hm => ?_, fun m hm => h0.hel m (by simpa [emit] using hm)⟩
    simp only [emit] at hu
    rcases List.mem_append.mp hu with hu | hu
    · exact h0.upd us hu u hm
    · simp only [List.mem_singleton, Out.update.injEq] at hu
      subst hu
      exact .inl (t2 u hm)

/-- One event. -/
theorem Told.step {s s' : Cons} (h : Told T A s) (hM : Moment cc s) {op : Op}
    (hhello : ∀ buf a1 a2, op = .helloComplete buf a1 a2 → s.helloFetcher = some true →
      ∀ st, StateMsg.wireDecode buf = .ok st → ∀ n ∈ st.content, ∀ p q, announced n = some (p, q) → T p q)
    (hsync : ∀ buf a, op = .syncComplete buf a → s.syncFetcher = some true → s.contentType ≠ .nack →
      ∀ st, StateMsg.wireDecode buf = .ok st → ∀ n ∈ st.content, ∀ p q, announced n = some (p, q) → T p q)
    (hc : ∀ p q cb, Call.addSubscription p q cb ∈ callsIn op → A p (q % U64)) (hs : step cc s op = .ok s') : Told T A s' := by
  cases op with
  | call c => exact h.call (fun p q cb e => hc p q cb (by simp [callsIn, e])) hs
  | helloSegment d =>
    simp only [Cons.step] at hs
    split at hs <;> cases hs
    · split
      · exact h.same rfl rfl
      · exact h
    · exact h
  | helloComplete buf a1 a2 =>
    simp only [Cons.step] at hs
    split at hs
    · rename_i hf
      obtain ⟨_, _, hinv⟩ := hM.inv
      exact (h.same (s' := { s with helloFetcher := some false }) rfl rfl).onHello hinv.sub (hhello buf a1 a2 rfl hf) hc hs
    · cases hs; exact h
  | helloError =>
    simp only [Cons.step] at hs
    split at hs <;> cases hs
    · exact h.same rfl rfl
    · exact h
  | syncSegment d =>
    simp only [Cons.step] at hs
    split at hs
    · simp only [Res.ok.injEq] at hs
      obtain ⟨s1, e1, e2, hs⟩ : ∃ s1 : Cons, s1.prefixes = s.prefixes ∧ s1.log = s.log ∧
          (if s1.contentType = .nack then s1.sendHelloInterest cc else s1) = s' :=
        ⟨_, by split <;> rfl, by split <;> rfl, hs⟩
      have h1 := h.same e1 e2
      split at hs <;> subst hs
      · exact h1.sendHello
      · exact h1
    · cases hs; exact h
  | syncComplete buf a =>
    simp only [Cons.step] at hs
    split at hs
    · rename_i hf
      split at hs
      · cases hs; exact h.same rfl rfl
      · rename_i hk
        exact (h.same (s' := { s with syncFetcher := some false }) rfl rfl).onSync (hsync buf a rfl hf hk) hc hs
    · cases hs; exact h
  | syncError t =>
    simp only [Cons.step] at hs
    split at hs
    · split at hs
      · exact (h.same (s' := { s with syncFetcher := some false }) rfl rfl).sendSync hs
      · cases hs; exact h.same rfl rfl
    · cases hs; exact h
  | tick t =>
    simp only [Cons.step, Res.ok.injEq] at hs
    subst hs
    split
    · exact h.same rfl rfl
    · exact h
  | fire =>
    simp only [Cons.step] at hs
    split at hs
    · cases hs; exact h
    · rename_i ts _
      cases hs
      exact (h.same (s' := { s with timers := ts }) rfl rfl).sendHello
    · rename_i ts _
      exact (h.same (s' := { s with timers := ts }) rfl rfl).sendSync hs

end Cons

namespace Spec.PSRun

variable {pc : Cfg} {cc : CCfg} {P : Nat → Part} {C : Nat → Cons} {what : Nat → PSEv} {len : Nat}

/-- The consumer of a run has sent only good Interests and holds the IBF of a table of the run. -/
theorem safe (h : PSRun pc cc P C what len) (hm : Matching pc cc) (hr : Regular pc P what len) :
    ∀ {n}, n ≤ len → Cons.Safe pc cc (Tables P n) (C n) := by
  intro n
  induction n with
  | zero => exact fun _ => Cons.init_safe h.initC
  | succ n ih =>
    intro hn
    have ih := ih (by omega)
    have mono : ∀ b, Tables P n b → Tables P (n + 1) b := fun b ⟨r, h1, h2⟩ => ⟨r, by omega, h2⟩
    cases h.step n (by omega) with
    | prod op _ _ hc => rw [hc]; exact ih.mono mono
    | cons op hw hs hp hsync hhello =>
      have hv := h.earlier (n := n) (by omega)
      have hrn := Spec.Regular.earlier h hr (n := n) (by omega)
      by_cases he : op = .call .sendSync
      · subst he
        have hs' : (C n).sendSyncInterest cc = .ok (C (n + 1)) := hs
        obtain ⟨s', h1, h2, _⟩ := Cons.sendSync_safe hm (hv.sendable hm) ih (Cons.sendSyncInterest_ok hs').1
        rw [hs', Res.ok.injEq] at h1
        rw [h1]
        exact h2.mono mono
      · obtain ⟨s', h1, h2⟩ := Cons.step_safe hm (hv.sendable hm) ih (op := op) (fun e => absurd e he)
          (fun buf a1 a2 e hact => (deliveries hv hm hrn ih buf).1 hact (hhello buf a1 a2 e))
          (fun buf a e hact hk => (deliveries hv hm hrn ih buf).2 hact hk (hsync buf a e))
        rw [hs, Res.ok.injEq] at h1
        rw [h1]
        exact h2.mono mono

/-- The last Interest that was sent under the sync prefix can be parsed. -/
theorem last_fields (h : PSRun pc cc P C what len) (hm : Matching pc cc) (hr : Regular pc P what len) {n : Nat} (hn : n ≤ len)
    {name : Name} (h3 : (askedUnder (cc.syncPrefix ++ [SYNC]) (C n).log).getLast? = some name) :
    ∃ bf b, SyncFields pc name bf b.iblt ∧ Tables P n b := by
  have := List.mem_of_getLast? h3
  simp only [askedUnder, List.mem_filterMap] at this
  obtain ⟨o, ho, hx⟩ := this
  split at hx
  · split at hx
    · rename_i hp
      cases hx
      rcases (h.safe hm hr hn).asked _ _ ho with he | ⟨bf, b, h1, _, h2⟩
      · rw [he] at hp
        have := Cons.not_sync_hello cc.syncPrefix []
        rw [List.append_nil] at this
        exact absurd (List.isPrefixOf_iff_prefix.mp hp) this
      · exact ⟨bf, b, h1, h2⟩
    · cases hx
  · cases hx

theorem told (h : PSRun pc cc P C what len) (hm : Matching pc cc) (hr : Regular pc P what len) :
    ∀ {n}, n ≤ len → Cons.Told (Was P n) (Given what n) (C n) := by
  intro n
  induction n with
  | zero =>
    intro _
    have hi := h.initC
    unfold Cons.init at hi
    simp only [Res.bind_eq_ok, Res.ok.injEq] at hi
    obtain ⟨bf, _, e⟩ := hi
    rw [← e]
    exact ⟨fun p y hy => by simp [Cons.getSeqNo] at hy, fun us hu => by simp at hu, fun m hm => by simp at hm⟩
  | succ n ih =>
    intro hn
    have ih : Cons.Told (Was P n) (Given what (n + 1)) (C n) := (ih (by omega)).mono (fun _ _ h => h) (by
      rintro p q ⟨k, hk, hx⟩
      exact ⟨k, by omega, hx⟩)
    have up : ∀ p q, Was P n p q → Was P (n + 1) p q := fun p q ⟨r, h1, h2⟩ => ⟨r, by omega, h2⟩
    cases h.step n (by omega) with
    | prod op _ _ hc => rw [hc]; exact ih.mono up (fun _ _ h => h)
    | cons op hw hs hp hsync hhello =>
      have hv := h.earlier (n := n) (by omega)
      have hrn := Spec.Regular.earlier h hr (n := n) (by omega)
      have read : ∀ {b : Base} {content : List Name}, Tables P n b →
          (∀ n ∈ content, ∃ p x, b.getSeqNo p = some x ∧ n = Name.appendNumber p x) → (encodeNames content).length < 2 ^ 64 →
          ∀ st, StateMsg.wireDecode (encodeNames content) = .ok st → ∀ m ∈ st.content, ∀ p q, announced m = some (p, q) → Was P n p q := by
        intro b content hb hc hl st hst m hmem p q ha
        rw [hv.decoded hrn hb hc hl hst] at hmem
        obtain ⟨p', x, h1, rfl⟩ := hc m hmem
        rw [announced_appendNumber p' x (((hv.comparable hrn).inv b hb).lt p' x h1)] at ha
        cases ha
        obtain ⟨r, hle, rfl⟩ := hb
        exact ⟨r, hle, h1⟩
      refine (ih.step (hv.momentC (le_refl _)) (fun buf a1 a2 e hact => ?_) (fun buf a e hact hk => ?_) (fun p q cb hmem => ?_) hs).mono
        up (fun _ _ h => h)
      · obtain ⟨b, c, hb, _, _, rfl, hl, _⟩ := hv.hello_delivered hm hrn (le_refl _) hact (hhello buf a1 a2 e)
        exact read hb (fun n hn => (helloContent_spec ((hv.comparable hrn).inv b hb) n).mp hn) hl
      · have hd := hsync buf a e
        obtain ⟨m, hmn, name, segs, h1, h2, h3, h4, h5⟩ := id hd
        obtain ⟨bf, b0, hf, _⟩ := hv.last_fields hm hrn (le_refl _) h3
        obtain ⟨b, c, content, hb, _, _, rfl, hl, hnames, _⟩ := hv.sync_delivered hm hrn (le_refl _) hact hk hd h3 hf
        exact read hb hnames hl
      · exact ⟨n, by omega, op, q, cb, hw, hmem, rfl⟩

end Spec.PSRun
end PSync
