import Verif.Proofs.SafeCons
import Verif.Spec.Many
import Verif.Props.PubSub
/-!
C61: honest traffic never makes a partial-sync producer or its consumers fail.
-/
namespace PSync
open Spec Base

section
variable {ι : Type} [DecidableEq ι] {pc : Cfg} {cc : ι → CCfg} {P : Nat → Part} {C : Nat → ι → Cons} {what : Nat → MEv ι}
  {len : Nat} {K : Name → Nat → Prop}

theorem Part.tick_zero (cfg : Cfg) (s : Part) : Part.step cfg s (.tick 0) = .ok s := by
  simp only [Part.step]
  split
  · rename_i h
    have h0 : s.now = 0 := by
      simp only [Bool.and_eq_true, decide_eq_true_eq] at h
      omega
    rw [← h0]
  · rfl

/-- Each consumer and the producer make a run of two. -/
theorem Spec.MRun.view (h : MRun pc cc P C what len) (i : ι) :
    PSRun pc (cc i) P (fun k => C k i) (fun k => seenBy i (what k)) len := by
  refine ⟨h.initP, h.initC i, fun n hn => ?_⟩
  cases h.step n hn with
  | prod op hw hs hc => exact .prod op (by simp only [hw, seenBy]) hs (by rw [hc])
  | cons j op hw hs hj hp hf =>
    by_cases hji : j = i
    · subst hji
      exact .cons op (by simp only [hw, seenBy, if_true]) hs hp hf.sync hf.hello
    · refine .prod (.tick 0) (by simp only [hw, seenBy, if_neg hji]) ?_ (hj i (Ne.symm hji))
      rw [Part.tick_zero, hp]

theorem NoCollisionsIn.anti {K' : Name → Nat → Prop} {e : Nat} (h : NoCollisionsIn e K) (hs : ∀ p q, K' p q → K p q) :
    NoCollisionsIn e K' := by
  have near : ∀ n, Near K' n → Near K n := fun n ⟨p, q, h1, h2⟩ => ⟨p, q, hs p q h1, h2⟩
  have hash : ∀ A, HashesOf K' A → HashesOf K A := fun A ⟨h1, h2⟩ =>
    ⟨h1, fun k hk => by obtain ⟨p, q, h3, h4⟩ := h2 k hk; exact ⟨p, q, hs p q h3, h4⟩⟩
  exact ⟨fun n n' h1 h2 => h.names n n' (near n h1) (near n' h2), fun A B hA hB => h.checks A B (hash A hA) (hash B hB),
    fun A B hA hB => h.few A B (hash A hA) (hash B hB)⟩

theorem Spec.PSRun.earlier {cc : CCfg} {C : Nat → Cons} {what : Nat → PSEv} (h : PSRun pc cc P C what len) {n : Nat} (hn : n ≤ len) :
    PSRun pc cc P C what n := ⟨h.initP, h.initC, fun m hm => h.step m (by omega)⟩

theorem Spec.Regular.earlier {cc : CCfg} {C : Nat → Cons} {what : Nat → PSEv} (h : PSRun pc cc P C what len)
    (hr : Regular pc P what len) {n : Nat} (hn : n ≤ len) : Regular pc P what n := by
  obtain ⟨hp, hmd⟩ := h.later hn (le_refl _)
  have get : ∀ {a : Nat} {e : Name × Bytes × Nat}, (P n).replies[a]? = some e → (P len).replies[a]? = some e := by
    intro a e ha
    obtain ⟨ext, hext⟩ := hp
    rw [← hext, List.getElem?_append_left (List.getElem?_eq_some_iff.mp ha).1]
    exact ha
  exact ⟨fun k hk => hr.names k (by omega), fun e he => hr.buffers e (hp.subset he),
    fun a ha => hr.version_lt a (lt_of_lt_of_le ha hp.length_le),
    fun a b e e' ha hb => hr.versions a b e e' (get ha) (get hb), NoCollisionsIn.anti hr.collisions (fun p q h => hmd.subset h)⟩

/-- What fetches of a consumer deliver. -/
theorem deliveries {cc : CCfg} {C : Nat → Cons} {what : Nat → PSEv} (h : PSRun pc cc P C what len) (hm : Matching pc cc)
    (hr : Regular pc P what len) (hs : Cons.Safe pc cc (Spec.PSRun.Tables P len) (C len)) (buf : Bytes) :
    ((C len).helloFetcher = some true → FetchDone (fun d => Out.data d ∈ (P len).log) C what (cc.syncPrefix ++ [HELLO]) .helloSegment len buf →
      Cons.Delivery pc (Spec.PSRun.Tables P len) (C len).helloDataName buf) ∧
    ((C len).syncFetcher = some true → (C len).contentType ≠ .nack →
      FetchDone (fun d => Out.data d ∈ (P len).log) C what (cc.syncPrefix ++ [SYNC]) .syncSegment len buf →
      Cons.Delivery pc (Spec.PSRun.Tables P len) (C len).syncDataName buf) := by
  have decode : ∀ {b : Base} {content : List Name}, Spec.PSRun.Tables P len b →
      (∀ n ∈ content, ∃ p x, b.getSeqNo p = some x ∧ n = Name.appendNumber p x) → (encodeNames content).length < 2 ^ 64 →
      ∃ st, StateMsg.wireDecode (encodeNames content) = .ok st ∧ ∀ n ∈ st.content, ∃ x, announced n = some x := by
    intro b content hb hc hl
    refine ⟨_, wireDecode_encodeNames content (fun n hn => ?_) (by omega), fun n hn => ?_⟩
    · obtain ⟨p, x, h1, rfl⟩ := hc n hn
      obtain ⟨r, hle, rfl⟩ := hb
      exact appendNumber_valid (h.valid hr hle h1) x
    · obtain ⟨p, x, h1, rfl⟩ := hc n hn
      exact ⟨_, announced_appendNumber p x (((h.comparable hr).inv b hb).lt p x h1)⟩
  constructor
  · intro hact hd
    obtain ⟨b, c, hb, hcomp, hnm, rfl, hl, _⟩ := h.hello_delivered hm hr (le_refl _) hact hd
    exact ⟨⟨b, c, hb, hcomp, by simp [hnm]⟩, decode hb (fun n hn => (helloContent_spec ((h.comparable hr).inv b hb) n).mp hn) hl⟩
  · intro hact hkind hd
    obtain ⟨m, hmn, name, segs, h1, h2, h3, h4, h5⟩ := id hd
    have hgood : Cons.GoodAsk pc (Spec.PSRun.Tables P len) name := by
      have := List.mem_of_getLast? h3
      simp only [askedUnder, List.mem_filterMap] at this
      obtain ⟨o, ho, hx⟩ := this
      split at hx
      · split at hx
        · rename_i hp
          cases hx
          rcases hs.asked _ _ ho with he | hg
          · rw [he] at hp
            have := Cons.not_sync_hello cc.syncPrefix []
            rw [List.append_nil] at this
            exact absurd (List.isPrefixOf_iff_prefix.mp hp) this
          · exact hg
        · cases hx
      · cases hx
    obtain ⟨bf, b0, hf, _, _⟩ := hgood
    obtain ⟨b, c, content, hb, hcomp, hnm, rfl, hl, hnames, _⟩ := h.sync_delivered hm hr (le_refl _) hact hkind hd h3 hf
    exact ⟨⟨b, c, hb, hcomp, by simp [hnm]⟩, decode hb hnames hl⟩

theorem Cons.Safe.mono {cc : CCfg} {G G' : Base → Prop} {s : Cons} (h : Cons.Safe pc cc G s) (hG : ∀ b, G b → G' b) :
    Cons.Safe pc cc G' s := by
  refine ⟨h.mom, fun n lt hn => ?_, ?_, h.ready⟩
  · rcases h.asked n lt hn with h1 | ⟨bf, b, h1, h2, h3⟩
    · exact .inl h1
    · exact .inr ⟨bf, b, h1, h2, hG b h3⟩
  · rcases h.held with h1 | ⟨b, c, h1, h2, h3⟩
    · exact .inl h1
    · exact .inr ⟨b, c, hG b h1, h2, h3⟩

/-- A consumer is safe after every number of events. -/
theorem consumer_safe (hm : ∀ i, Matching pc (cc i)) (h : MRun pc cc P C what len)
    (hh : ∀ n < len, HonestPS cc K P C what n (what n)) (hr : ∀ i, Regular pc P (fun k => seenBy i (what k)) len) (i : ι) :
    ∀ {n}, n ≤ len → Cons.Safe pc (cc i) (Spec.PSRun.Tables P n) (C n i) := by
  intro n
  induction n with
  | zero => exact fun _ => Cons.init_safe (h.initC i)
  | succ n ih =>
    intro hn
    have ih := ih (by omega)
    have mono : ∀ b, Spec.PSRun.Tables P n b → Spec.PSRun.Tables P (n + 1) b := fun b ⟨r, h1, h2⟩ => ⟨r, by omega, h2⟩
    cases h.step n (by omega) with
    | prod op _ _ hc => rw [hc]; exact ih.mono mono
    | cons j op hw hs hj hp hf =>
      by_cases hji : i = j
      · subst hji
        have hv := (h.view i).earlier (n := n) (by omega)
        have hrn := Spec.Regular.earlier (h.view i) (hr i) (n := n) (by omega)
        obtain ⟨s', h1, h2⟩ := Cons.step_safe (hm i) (hv.sendable (hm i)) ih (op := op)
          (fun e => (hh n (by omega)).started i (by rw [hw, e]))
          (fun buf a1 a2 e hact => (deliveries hv (hm i) hrn ih buf).1 hact (hf.hello buf a1 a2 e))
          (fun buf a e hact hk => (deliveries hv (hm i) hrn ih buf).2 hact hk (hf.sync buf a e))
        rw [hs, Res.ok.injEq] at h1
        rw [h1]
        exact h2.mono mono
      · rw [hj i hji]; exact ih.mono mono

/-- Interests of consumers are ones the producer can deal with. -/
theorem honest_interest (hm : ∀ i, Matching pc (cc i)) (h : MRun pc cc P C what len)
    (hh : ∀ n < len, HonestPS cc K P C what n (what n)) (hr : ∀ i, Regular pc P (fun k => seenBy i (what k)) len)
    (i0 : ι) {n : Nat} (hn : n ≤ len) (hsafe : ∀ r ≤ n, Part.Safe K pc (P r)) {int : Interest} (hi : OfConsumers (P n) (C n) int) :
    ((pc.syncPrefix ++ [HELLO]) <+: int.name → int.name.getLast? = some HELLO ∨ 4 ≤ int.name.length) ∧
    ((pc.syncPrefix ++ [SYNC]) <+: int.name → Part.GoodName K pc int.name ∨
      ((int.name.drop (pc.syncPrefix.length + 1)).length ≠ 4 ∧ (int.name.drop (pc.syncPrefix.length + 1)).length ≠ 6)) := by
  rcases hi with ⟨i, lt, hl⟩ | ⟨d, base, seg, k, hd, hblob, hdn, hin⟩
  · rcases (consumer_safe hm h hh hr i hn).asked _ _ hl with he | ⟨bf, b, h1, h2, r, hle, rfl⟩
    · rw [he, (hm i).syncPrefix]
      refine ⟨fun _ => .inl (by simp), fun hp => ?_⟩
      have := Cons.not_sync_hello pc.syncPrefix []
      rw [List.append_nil] at this
      exact absurd hp this
    · refine ⟨fun _ => .inr ?_, fun _ => .inl ⟨bf, _, h1, h2, (hsafe r hle).base.table⟩⟩
      obtain ⟨c1, c2, c3, c4, _, _, e, _⟩ := h1
      rw [e]
      simp
  · have hv := (h.view i0)
    rcases Part.reach_recorded (hv.reachP hn) hd with ⟨b, key, bf, t, h1, h2⟩ | ⟨a, e, h1, h2⟩
    · exfalso
      unfold nackData at h2
      simp only [Res.bind_eq_ok, Res.ok.injEq] at h2
      obtain ⟨c, _, rfl⟩ := h2
      cases hblob
    · obtain ⟨m, hm'⟩ := List.mem_iff_getElem?.mp h2
      have hname := (segmentData_spec (e.1.appendVersion (pc.version a)) e.2.1 e.2.2).name m d hm'
      rw [hdn] at hname
      have hb := (List.append_inj' hname rfl).1
      rw [hin, hb]
      obtain ⟨b, _, hmade⟩ := hv.replies (hm i0) (hr i0) hn e (List.mem_of_getElem? h1)
      generalize e.1 = nm at hmade ⊢
      generalize e.2.1 = buf at hmade
      cases hmade with
      | hello c hc =>
        refine ⟨fun _ => .inr (by simp [Name.appendVersion]), fun hp => ?_⟩
        exact absurd hp (by
          have := Cons.not_sync_hello pc.syncPrefix ([c] ++ (Name.appendVersion [] (pc.version a) ++ [k]))
          simpa [Name.appendVersion] using this)
      | sync c key bf t content hc hf hnames hcov =>
        obtain ⟨c1, c2, c3, c4, _, _, en, _⟩ := hf
        rw [en]
        refine ⟨fun _ => .inr (by simp [Name.appendVersion]), fun _ => .inr ?_⟩
        have : List.drop (List.length pc.syncPrefix + 1)
            (Name.appendVersion (pc.syncPrefix ++ [SYNC, c1, c2, c3, c4] ++ [c]) (pc.version a) ++ [k]) =
            [c1, c2, c3, c4, c] ++ (Name.appendVersion [] (pc.version a) ++ [k]) := by
          unfold Name.appendVersion
          simp [List.drop_append]
        rw [this]
        simp [Name.appendVersion]

/-- One event, given that the producer has been safe so far. -/
theorem honestPS_step (hm : ∀ i, Matching pc (cc i)) (hK : NoCollisionsIn pc.expected K)
    (hf : ∀ A B, HashesOf K A → HashesOf K B → diffCount A B < pc.fuel) (h : MRun pc cc P C what len)
    (hh : ∀ n < len, HonestPS cc K P C what n (what n)) (hr : ∀ i, Regular pc P (fun k => seenBy i (what k)) len)
    (i0 : ι) {n : Nat} (hn : n ≤ len) (hsafe : ∀ r ≤ n, Part.Safe K pc (P r)) {op : Part.Op}
    (ho : HonestPS cc K P C what n (.prod op)) : ∃ s', Part.step pc (P n) op = .ok s' ∧ Part.Safe K pc s' :=
  Part.step_safe ⟨(hm i0).codec, (hm i0).expected, hK, hf⟩ (hsafe n (le_refl _))
    (fun int e => (honest_interest hm h hh hr i0 hn hsafe (ho.interests int (by rw [e]))).1)
    (fun int e => (honest_interest hm h hh hr i0 hn hsafe (ho.interests int (by rw [e]))).2)
    (fun p seq e => ho.numbers p seq (by rw [e]))

/-- **C61**: A partial-sync producer and any number of consumers with matching parameters.  Every Interest delivered to the
producer is one that a consumer has sent, or one for another segment of a reply.  Every fetch of a consumer completes with
packets the producer has sent.  The application of the producer publishes only numbers in `K`, a set among whose hashes there
are no collisions.  No application of a consumer calls sendSyncInterest before its first hello callback.  Then no event makes
the producer or a consumer throw, read out of bounds, fail an assertion or hang.  Otherwise the applications may call what
they like when they like, also from callbacks, and Interests and replies may be lost, delayed, repeated and reordered. -/
theorem c61_never_fails [Nonempty ι] (hm : ∀ i, Matching pc (cc i)) (hK : NoCollisionsIn pc.expected K)
    (hf : ∀ A B, HashesOf K A → HashesOf K B → diffCount A B < pc.fuel) (h : MRun pc cc P C what len)
    (hh : ∀ n < len, HonestPS cc K P C what n (what n)) (hr : ∀ i, Regular pc P (fun k => seenBy i (what k)) len)
    (e : MEv ι) (he : HonestPS cc K P C what len e) : DealtWith pc cc (P len) (C len) e := by
  obtain ⟨i0⟩ := ‹Nonempty ι›
  have hsafe : ∀ n, n ≤ len → ∀ r ≤ n, Part.Safe K pc (P r) := by
    intro n
    induction n with
    | zero =>
      intro _ r hr0
      rw [Nat.le_zero.mp hr0, h.initP]
      exact Part.init_safe
    | succ n ih =>
      intro hn r hrn
      have ih := ih (by omega)
      rcases Nat.lt_or_ge r (n + 1) with hlt | hge
      · exact ih r (by omega)
      rw [Nat.le_antisymm hrn hge]
      cases h.step n (by omega) with
      | prod op hw hs _ =>
        have hho := hh n (by omega)
        rw [hw] at hho
        obtain ⟨s', h1, h2⟩ := honestPS_step hm hK hf h hh hr i0 (by omega) ih hho
        rw [hs, Res.ok.injEq] at h1
        rw [h1]; exact h2
      | cons j op _ _ _ hp _ => rw [hp]; exact ih n (le_refl _)
  cases e with
  | prod op =>
    obtain ⟨s', h1, _⟩ := honestPS_step hm hK hf h hh hr i0 (le_refl _) (hsafe len (le_refl _)) he
    exact ⟨s', h1⟩
  | cons i op =>
    have hs := consumer_safe hm h hh hr i (le_refl _)
    have hfe := he.fetches i op rfl
    obtain ⟨s', h1, _⟩ := Cons.step_safe (hm i) ((h.view i).sendable (hm i)) hs (op := op)
      (fun e => he.started i (by rw [e]))
      (fun buf a1 a2 e hact => (deliveries (h.view i) (hm i) (hr i) hs buf).1 hact (hfe.hello buf a1 a2 e))
      (fun buf a e hact hk => (deliveries (h.view i) (hm i) (hr i) hs buf).2 hact hk (hfe.sync buf a e))
    exact ⟨s', h1⟩

/-- C45 for any number of consumers: each of them is up to date with the IBF it holds if its own application is careful. -/
theorem c45_up_to_date_many_partial (hm : ∀ i, Matching pc (cc i)) (h : MRun pc cc P C what len)
    (hr : ∀ i, Regular pc P (fun k => seenBy i (what k)) len) (i : ι)
    (hc : Careful pc P (fun k => C k i) (fun k => seenBy i (what k)) len)
    (n : Nat) (hn : n ≤ len) (r : Nat) (hle : r ≤ len) (hi : HoldsIbf pc (C n i) (P r)) : UpToDate (C n i) (P r) :=
  c45_up_to_date_partial pc (cc i) P (fun k => C k i) (fun k => seenBy i (what k)) len (h.view i) (hm i) (hr i) hc n hn r hle hi

end

namespace Cons

/-- Before the first hello callback the consumer has no IBF and nothing that could ask with one. -/
def Fresh (s : Cons) : Prop :=
  (∃ l, Out.hello l ∈ s.log) ∨ (s.iblt = [] ∧ s.syncFetcher ≠ some true ∧ ∀ d, (d, CTimer.sync) ∉ s.timers)

theorem Fresh.call {cfg : CCfg} {s s' : Cons} {c : Call} (hs : Fresh s) (h : Cons.call cfg s c = .ok s') : Fresh s' := by
  have keep : ∀ {x : Cons}, (∀ o ∈ s.log, o ∈ x.log) → x.iblt = s.iblt → (x.syncFetcher = some true → s.syncFetcher = some true) →
      (∀ d, (d, CTimer.sync) ∈ x.timers → (d, CTimer.sync) ∈ s.timers) → Fresh x := by
    intro x h1 h2 h3 h4
    rcases hs with ⟨l, hl⟩ | ⟨k1, k2, k3⟩
    · exact .inl ⟨l, h1 _ hl⟩
    · exact .inr ⟨h2.trans k1, fun e => k2 (h3 e), fun d hd => k3 d (h4 d hd)⟩
  cases c with
  | addSubscription p seq cb =>
    simp only [Cons.call, addSubscription] at h
    split at h
    · cases h; exact hs
    · simp only [Res.bind_eq_ok, Res.ok.injEq] at h
      obtain ⟨_, ⟨_, _, rfl⟩, rfl⟩ := h
      simp only
      split
      · exact keep (fun o ho => List.mem_append_left _ ho) rfl (fun h => h) (fun _ h => h)
      · exact keep (fun o ho => ho) rfl (fun h => h) (fun _ h => h)
  | removeSubscription p =>
    simp only [Cons.call, Res.bind_eq_ok, Res.ok.injEq] at h
    obtain ⟨⟨r, s1⟩, h1, rfl⟩ := h
    rcases removeSubscription_ok h1 with ⟨_, _, rfl⟩ | ⟨_, _, bf, _, rfl⟩
    · exact hs
    · exact keep (fun o ho => ho) rfl (fun h => h) (fun _ h => h)
  | sendHello =>
    simp only [Cons.call, Res.ok.injEq] at h
    subst h
    exact keep (fun o ho => List.mem_append_left _ ho) rfl (fun h => h) (fun _ h => h)
  | sendSync =>
    obtain ⟨hne, cs, _, rfl⟩ := sendSyncInterest_ok (show s.sendSyncInterest cfg = .ok s' from h)
    rcases hs with ⟨l, hl⟩ | ⟨k1, _, _⟩
    · exact .inl ⟨l, List.mem_append_left _ hl⟩
    · exact absurd k1 hne
  | stop =>
    simp only [Cons.call, Res.ok.injEq] at h
    subst h
    exact keep (fun o ho => ho) rfl (by simp [stop]) (by simp [stop])

theorem Fresh.calls {cfg : CCfg} {l : List Call} {s s' : Cons} (hs : Fresh s) (h : foldRes (Cons.call cfg) s l = .ok s') : Fresh s' :=
  foldRes_inv (P := Fresh) (f := Cons.call cfg) l (fun _ _ _ _ hs h => hs.call h) hs h

theorem Fresh.step {cfg : CCfg} {s s' : Cons} {op : Op} (hs : Fresh s) (h : Cons.step cfg s op = .ok s') : Fresh s' := by
  rcases id hs with ⟨l, hl⟩ | ⟨k1, k2, k3⟩
  · obtain ⟨ext, e⟩ := (step_micros h).log
    exact .inl ⟨l, by rw [e]; exact List.mem_append_left _ hl⟩
  cases op with
  | call c => exact hs.call h
  | helloSegment d =>
    simp only [Cons.step] at h
    split at h
    · cases h
      split
      · exact .inr ⟨k1, k2, k3⟩
      · exact hs
    · cases h; exact hs
  | helloComplete buf a1 a2 =>
    simp only [Cons.step] at h
    split at h
    · unfold onHelloData at h
      simp only [Res.bind_eq_ok] at h
      obtain ⟨st, _, r, _, s1, h1, h2⟩ := h
      have f1 : Fresh s1 := Fresh.calls (.inl ⟨r.2.2, List.mem_append_right _ (List.mem_singleton.mpr rfl)⟩) h1
      split at h2
      · cases h2; exact f1
      · refine Fresh.calls (s := s1.emit (.update r.2.1)) ?_ h2
        rcases f1 with ⟨l, hl⟩ | hf
        · exact .inl ⟨l, List.mem_append_left _ hl⟩
        · exact .inr hf
    · cases h; exact hs
  | helloError =>
    simp only [Cons.step] at h
    split at h
    · cases h; exact .inr ⟨k1, k2, by simpa using k3⟩
    · cases h; exact hs
  | syncSegment d => simp only [Cons.step, if_neg k2] at h; cases h; exact hs
  | syncComplete buf acts => simp only [Cons.step, if_neg k2] at h; cases h; exact hs
  | syncError t => simp only [Cons.step, if_neg k2] at h; cases h; exact hs
  | tick t =>
    simp only [Cons.step, Res.ok.injEq] at h
    subst h
    split
    · exact .inr ⟨k1, k2, k3⟩
    · exact hs
  | fire =>
    simp only [Cons.step] at h
    split at h
    · cases h; exact hs
    · rename_i ts hd
      cases h
      exact .inr ⟨k1, k2, fun d hx => k3 d ((takeDue_mem hd).2 _ hx)⟩
    · rename_i ts hd
      obtain ⟨d, hx⟩ := (takeDue_mem hd).1
      exact absurd hx (k3 d)

end Cons

/-- The call of sendSyncInterest before the first hello callback, which C61 excludes, fails an assertion, whatever has
happened to the consumer before. -/
theorem c61_needs_hello (cfg : CCfg) (s : Cons) (h : Cons.Reach cfg s) (hno : ∀ l, Out.hello l ∉ s.log) :
    Cons.step cfg s (.call .sendSync) = .ub .assertion := by
  obtain ⟨s0, ops, h0, h1⟩ := h
  have hf : Cons.Fresh s := by
    refine foldRes_inv (P := Cons.Fresh) (f := Cons.step cfg) ops (fun _ _ _ _ hs h => hs.step h) ?_ h1
    unfold Cons.init at h0
    simp only [Res.bind_eq_ok, Res.ok.injEq] at h0
    obtain ⟨bf, _, rfl⟩ := h0
    exact .inr ⟨rfl, by simp, by simp⟩
  rcases hf with ⟨l, hl⟩ | ⟨hi, _⟩
  · exact absurd hl (hno l)
  · simp only [Cons.step, Cons.call, Cons.sendSyncInterest, if_pos hi]

/-- Such a state: a subscription, a hello Interest that timed out, and another one after the retry timer. -/
example : ∃ s, Cons.Reach sampleCCfg s ∧ (∀ l, Out.hello l ∉ s.log) ∧ s.log.length = 2 ∧ s.isSubscribed pA = true := by
  have key : ((Res.bind (Cons.init sampleCCfg) fun s => Cons.run sampleCCfg s
      [.call (.addSubscription pA 0 false), .call .sendHello, .helloError, .tick 100, .fire]).get?.map fun s =>
      s.log.all (fun o => match o with | .interest _ _ => true | _ => false) && decide (s.log.length = 2) && s.isSubscribed pA)
      = some true := by decide +kernel
  obtain ⟨s, h1, h2⟩ := Res.of_get? key
  simp only [Res.bind_eq_ok] at h1
  obtain ⟨s0, h0, h1⟩ := h1
  simp only [Bool.and_eq_true, List.all_eq_true, decide_eq_true_eq] at h2
  exact ⟨s, ⟨s0, _, h0, h1⟩, fun l hl => by simpa using h2.1.1 _ hl, h2.1.2, h2.2⟩

end PSync
