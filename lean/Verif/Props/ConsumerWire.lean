import Verif.Props.Consumer
/-!
Properties C49–C52: the Interests a consumer sends, stop(), application nacks.
-/
namespace PSync
open Spec

/-! ### C49 -/

/-- The moment an Interest is sent. -/
theorem CMicro.interest {cfg : CCfg} {C : Cons.Call → Prop} {m m' : Cons} (h : CMicro cfg C m m') {n : Name} {lt : Nat}
    (hl : m'.log = m.log ++ [.interest n lt]) :
    (n = cfg.syncPrefix ++ [HELLO] ∧ lt = cfg.helloLifetime) ∨
    (lt = cfg.syncLifetime ∧ ∃ cs, m.bloom.toComponents cfg.libm = .ok cs ∧ n = cfg.syncPrefix ++ [SYNC] ++ cs ++ m.iblt) := by
  have no : ∀ {l : List Out}, m'.log = m.log ++ l → .interest n lt ∉ l → False := fun h1 h2 => by
    have := List.append_cancel_left (hl.symm.trans h1)
    rw [← this] at h2
    simp at h2
  have no' : m'.log = m.log → False := fun h1 => no (l := []) (by simpa using h1) (by simp)
  cases h with
  | call c hc h =>
    cases c with
    | addSubscription p seq cb =>
      simp only [Cons.call, Res.bind_eq_ok, Res.ok.injEq] at h
      obtain ⟨⟨r, s1⟩, h1, rfl⟩ := h
      rcases Cons.addSubscription_ok h1 with ⟨_, _, rfl⟩ | ⟨hx, _, bf, hbf, hp, hsub, hb, _, hl'⟩
      · exact (no' rfl).elim
      · exact (no hl' (by split <;> simp)).elim
    | removeSubscription p =>
      simp only [Cons.call, Res.bind_eq_ok, Res.ok.injEq] at h
      obtain ⟨⟨r, s1⟩, h1, rfl⟩ := h
      rcases Cons.removeSubscription_ok h1 with ⟨_, _, rfl⟩ | ⟨hx, _, bf, hbf, rfl⟩ <;> exact (no' rfl).elim
    | sendHello =>
      simp only [Cons.call, Res.ok.injEq] at h
      subst h
      have := List.append_cancel_left hl
      simp only [List.cons.injEq, Out.interest.injEq, and_true] at this
      exact Or.inl ⟨this.1.symm, this.2.symm⟩
    | sendSync =>
      obtain ⟨_, cs, h1, rfl⟩ := Cons.sendSyncInterest_ok (show m.sendSyncInterest cfg = .ok m' from h)
      have := List.append_cancel_left hl
      simp only [List.cons.injEq, Out.interest.injEq, and_true] at this
      exact Or.inr ⟨this.2.symm, cs, h1, this.1.symm⟩
    | stop =>
      simp only [Cons.call, Res.ok.injEq] at h
      subst h
      exact (no' rfl).elim
  | helloData names r ib h => exact (no' rfl).elim
  | syncData names r ib h => exact (no' rfl).elim
  | notify us => exact (no (l := [.update us]) rfl (by simp)).elim
  | hello a => exact (no (l := [.hello a]) rfl (by simp)).elim
  | internal h1 h2 h3 h4 h5 => exact (no' h5).elim

theorem toComponents_isSync {cfg : CCfg} {bf : Bloom} {cs : List Component} {ib : Name} (h : bf.toComponents cfg.libm = .ok cs) :
    IsSyncInterest cfg bf ib (cfg.syncPrefix ++ [SYNC] ++ cs ++ ib) := by
  unfold Bloom.toComponents at h
  split at h
  · cases h
  · rename_i t ht
    simp only [Res.ok.injEq] at h
    subst h
    exact ⟨t, ht, by simp [TlvType.generic]⟩

/-- C49: every Interest a consumer sends is the hello Interest, or carries the filter that results from
inserting the subscriptions of the moment `m` at which it is sent into a fresh filter, in any order and
multiplicity, followed by the IBF the consumer holds.  `m` lies between the beginning and the end of the
event, and exactly the outputs `e1` were made before it. -/
theorem c49_filter (cfg : CCfg) (bf0 : Bloom) (hb : freshFilter cfg = .ok bf0) (hz : SizedBf bf0) (s s' : Cons)
    (hs : Cons.Reach cfg s) (op : Cons.Op) (h : Cons.step cfg s op = .ok s') (e1 e2 : List Out) (n : Name) (lt : Nat)
    (he : s'.log = s.log ++ e1 ++ .interest n lt :: e2) :
    (n = cfg.syncPrefix ++ [HELLO] ∧ lt = cfg.helloLifetime) ∨
    ∃ m, CMicros cfg (Cons.During op) s m ∧ CMicros cfg (Cons.During op) m s' ∧ m.log = s.log ++ e1 ∧
      lt = cfg.syncLifetime ∧
      ∀ l, Lists l m → ∃ bf, foldRes Bloom.insert bf0 l = .ok bf ∧ IsSyncInterest cfg bf m.iblt n := by
  obtain ⟨m, m', h1, h2, h3, h4, h5⟩ := (Cons.step_micros h).moment he
  rcases h2.interest h5 with h6 | ⟨h6, cs, h7, rfl⟩
  · exact Or.inl h6
  · have hm : Cons.Moment cfg m := hs.moment.trans h1
    exact Or.inr ⟨m, h1, (Relation.ReflTransGen.single h2).trans h3, h4, h6,
      fun l hl => ⟨m.bloom, (hm.filter hb hz).2 l hl, toComponents_isSync h7⟩⟩

/-- C49 for events in which the application does not change its subscriptions: the transmitted filter is the
one of the subscriptions before the event, which are also those after it. -/
theorem c49_filter_current (cfg : CCfg) (bf0 : Bloom) (hb : freshFilter cfg = .ok bf0) (hz : SizedBf bf0) (s s' : Cons)
    (hs : Cons.Reach cfg s) (op : Cons.Op)
    (hno : ∀ c ∈ callsIn op, ∀ p, c ≠ .removeSubscription p ∧ ∀ seq cb, c ≠ .addSubscription p seq cb)
    (h : Cons.step cfg s op = .ok s') (ext : List Out) (he : s'.log = s.log ++ ext) (n : Name) (lt : Nat)
    (hn : .interest n lt ∈ ext) (hh : n ≠ cfg.syncPrefix ++ [HELLO]) :
    ∀ l, Lists l s → ∃ bf ib, foldRes Bloom.insert bf0 l = .ok bf ∧ IsSyncInterest cfg bf ib n := by
  intro l hl
  obtain ⟨e1, e2, rfl⟩ := List.append_of_mem hn
  rcases c49_filter cfg bf0 hb hz s s' hs op h e1 e2 n lt (by rw [he, List.append_assoc]) with h1 | ⟨m, h1, _, _, _, h2⟩
  · exact absurd h1.1 hh
  · obtain ⟨bf, h3, h4⟩ := h2 l (fun p => by
      rw [CMicros.subscribed (p := p) h1 (fun c hc => by
        rcases hc with hc | rfl | rfl
        · exact hno c hc p
        · exact ⟨by simp, by simp⟩
        · exact ⟨by simp, by simp⟩)]
      exact hl p)
    exact ⟨bf, _, h3, h4⟩

/-- Non-vacuity for C49: after subscribing to /a and /b and leaving /a, the sync Interest carries the filter of
/b alone, which is not the one of /a and /b. -/
example : ((consRun (subscribed ++ [.call (.addSubscription pB 0 false), .call (.removeSubscription pA), .call .sendSync])).get?.bind
      fun s => (sampleBf.insert pB).get?.bind fun bf => (bf.insert pA).get?.map fun bf' =>
      (decide (s.log.getLast? = some (.interest (nameOf [115] ++ [SYNC, ⟨8, [6]⟩, ⟨8, [1]⟩, ⟨8, bf.bits⟩,
        ⟨8, List.replicate 72 0⟩]) 1000)), decide (bf'.bits = bf.bits)))
    = some (true, false) := by decide +kernel

/-! ### C50 -/

namespace Cons

/-- Nothing is in flight or scheduled. -/
def Quiet (s : Cons) : Prop := s.helloFetcher ≠ some true ∧ s.syncFetcher ≠ some true ∧ s.timers = []

theorem quiet_step {cfg : CCfg} {s s' : Cons} {op : Op} (hq : Quiet s) (hno : ∀ c, op ≠ .call c)
    (h : step cfg s op = .ok s') : Quiet s' ∧ s'.log = s.log := by
  obtain ⟨q1, q2, q3⟩ := hq
  cases op with
  | call c => exact absurd rfl (hno c)
  | helloSegment d => simp only [step, if_neg q1, Res.ok.injEq] at h; subst h; exact ⟨⟨q1, q2, q3⟩, rfl⟩
  | helloComplete buf a1 a2 => simp only [step, if_neg q1, Res.ok.injEq] at h; subst h; exact ⟨⟨q1, q2, q3⟩, rfl⟩
  | helloError => simp only [step, if_neg q1, Res.ok.injEq] at h; subst h; exact ⟨⟨q1, q2, q3⟩, rfl⟩
  | syncSegment d => simp only [step, if_neg q2, Res.ok.injEq] at h; subst h; exact ⟨⟨q1, q2, q3⟩, rfl⟩
  | syncComplete buf acts => simp only [step, if_neg q2, Res.ok.injEq] at h; subst h; exact ⟨⟨q1, q2, q3⟩, rfl⟩
  | syncError t => simp only [step, if_neg q2, Res.ok.injEq] at h; subst h; exact ⟨⟨q1, q2, q3⟩, rfl⟩
  | tick t =>
    simp only [step, Res.ok.injEq] at h
    subst h
    split
    · exact ⟨⟨q1, q2, q3⟩, rfl⟩
    · exact ⟨⟨q1, q2, q3⟩, rfl⟩
  | fire =>
    simp only [step, q3, takeDue, Res.ok.injEq] at h
    subst h
    exact ⟨⟨q1, q2, q3⟩, rfl⟩

theorem quiet_run {cfg : CCfg} {s s' : Cons} {ops : List Op} (hq : Quiet s) (hno : ∀ op ∈ ops, ∀ c, op ≠ .call c)
    (h : run cfg s ops = .ok s') : s'.log = s.log :=
  (foldRes_inv (P := fun m : Cons => Quiet m ∧ m.log = s.log) ops (fun _ op _ hop hP hst =>
    ⟨(quiet_step hP.1 (hno op hop) hst).1, (quiet_step hP.1 (hno op hop) hst).2.trans hP.2⟩) ⟨hq, rfl⟩ h).2

theorem stop_quiet (s : Cons) : Quiet s.stop := ⟨by simp [stop], by simp [stop], rfl⟩

/-- A sequence of calls that ends with stop() leaves nothing behind. -/
theorem calls_stop_quiet {cfg : CCfg} {s s' : Cons} {cs : List Call} (h : foldRes (call cfg) s (cs ++ [.stop]) = .ok s') :
    Quiet s' := by
  rw [foldRes_append, Res.bind_eq_ok] at h
  obtain ⟨s1, _, h2⟩ := h
  simp only [foldRes, call, Res.ok_bind, Res.ok.injEq] at h2
  subst h2
  exact stop_quiet s1

end Cons

/-- C50: after stop() is called from the event loop, whatever Data, errors and timers occur, no Interest is
sent and no callback is invoked until the application makes another call. -/
theorem c50_stop (cfg : CCfg) (s s1 s' : Cons) (ops : List Cons.Op) (hno : ∀ op ∈ ops, ∀ c, op ≠ .call c)
    (h : Cons.step cfg s (.call .stop) = .ok s1) (h' : Cons.run cfg s1 ops = .ok s') : s'.log = s.log := by
  simp only [Cons.step, Cons.call, Res.ok.injEq] at h
  subst h
  have := Cons.quiet_run s.stop_quiet hno h'
  exact this

/-- C50 for stop() called last in the hello callback (and, if the update callback follows and makes calls, last
in that one too): after the event nothing happens any more. -/
theorem c50_stop_in_hello (cfg : CCfg) (s s1 s' : Cons) (buf : Bytes) (a1 a2 : List Cons.Call)
    (ha2 : a2 = [] ∨ ∃ b, a2 = b ++ [.stop]) (hf : s.helloFetcher = some true) (ops : List Cons.Op)
    (hno : ∀ op ∈ ops, ∀ c, op ≠ .call c)
    (h : Cons.step cfg s (.helloComplete buf (a1 ++ [.stop]) a2) = .ok s1) (h' : Cons.run cfg s1 ops = .ok s') :
    s'.log = s1.log := by
  refine Cons.quiet_run ?_ hno h'
  simp only [Cons.step, hf, if_true] at h
  unfold Cons.onHelloData at h
  simp only [Res.bind_eq_ok] at h
  obtain ⟨st, _, r, hr, s2, h1, h2⟩ := h
  have hq := Cons.calls_stop_quiet h1
  split at h2
  · simp only [Res.ok.injEq] at h2; rw [← h2]; exact hq
  · rcases ha2 with rfl | ⟨b, rfl⟩
    · simp only [foldRes, Res.ok.injEq] at h2
      rw [← h2]
      exact hq
    · exact Cons.calls_stop_quiet h2

/-- The part of C50 that concerns stop() called in the update callback of a sync reply. -/
def Spec.StopInUpdate : Prop :=
  ∀ (cfg : CCfg) (s s1 s' : Cons), Cons.Reach cfg s → ∀ buf us ext, Cons.step cfg s (.syncComplete buf [.stop]) = .ok s1 →
    s1.log = s.log ++ .update us :: ext → ∀ ops, (∀ op ∈ ops, ∀ c, op ≠ .call c) → Cons.run cfg s1 ops = .ok s' →
      s'.log = s1.log

/-- Events after a stop() in the update callback of a sync reply: the callback, then nevertheless a sync
Interest; the answer to it invokes the callback again. -/
def stopRun : List Cons.Op :=
  subscribed ++ [.syncSegment (ibfData (nameOf [115]) .blob [])]

/-- C50 is false as stated: stop() called in the update callback of a sync reply has no lasting effect, since
onSyncData sends the next sync Interest afterwards. -/
theorem c50_false : ¬ Spec.StopInUpdate := by
  intro h
  have key : ∃ s, consRun stopRun = .ok s ∧
      ((Cons.step sampleCCfg s (.syncComplete (encodeNames [pA.appendNumber 1]) [.stop])).get?.bind fun s1 =>
        (Cons.step sampleCCfg s1 (.syncComplete (encodeNames [pA.appendNumber 2]) [])).get?.map fun s' =>
        (decide (s1.log.take s.log.length = s.log), (s1.log.drop s.log.length).head?, decide (s'.log = s1.log)))
      = some (true, some (.update [⟨pA, 1, 1, 0⟩]), false) := Res.of_get? (by decide +kernel)
  obtain ⟨s, h1, h2⟩ := key
  cases h3 : Cons.step sampleCCfg s (.syncComplete (encodeNames [pA.appendNumber 1]) [.stop]) with
  | throw e => simp [h3, Res.get?] at h2
  | ub u => simp [h3, Res.get?] at h2
  | hang => simp [h3, Res.get?] at h2
  | ok s1 =>
    simp only [h3, Res.get?, Option.bind_some] at h2
    obtain ⟨s', h4, h5⟩ := Res.of_get? h2
    simp only [Prod.mk.injEq, decide_eq_true_eq, decide_eq_false_iff_not] at h5
    obtain ⟨h5, h6, h7⟩ := h5
    have hl : ∃ ext, s1.log = s.log ++ .update [⟨pA, 1, 1, 0⟩] :: ext := by
      have : s1.log = s.log ++ s1.log.drop s.log.length := by
        conv_lhs => rw [← List.take_append_drop s.log.length s1.log, h5]
      obtain ⟨ext, he⟩ := List.head?_eq_some_iff.mp h6
      exact ⟨ext, by rw [this, he]⟩
    obtain ⟨ext, hl⟩ := hl
    apply h7
    refine h sampleCCfg s s1 s' (consRun_reach h1) _ _ ext h3 hl [.syncComplete (encodeNames [pA.appendNumber 2]) []] (by simp) ?_
    simp only [Cons.run, foldRes, h4, Res.ok_bind]

/-- Non-vacuity for C50: a consumer with an outstanding sync Interest and an outstanding hello Interest is
stopped; the replies that arrive later have no effect, whereas without stop() they have. -/
example : (let ops : List Cons.Op := [.helloComplete (encodeNames [pA.appendNumber 5]) [] [],
        .syncSegment (ibfData (nameOf [115]) .blob []), .syncComplete (encodeNames [pA.appendNumber 1]) [], .tick 9999, .fire]
      ((consRun (subscribed ++ [.call .sendHello])).get?.map (·.log.length),
       (consRun (subscribed ++ [.call .sendHello, .call .stop] ++ ops)).get?.map (·.log.length),
       (consRun (subscribed ++ [.call .sendHello] ++ ops)).get?.map (·.log.length)))
    = (some 4, some 4, some 7) := by decide +kernel

/-! ### C51 -/

/-- C51: an application nack (a packet with a FinalBlockId, as producers send them) makes the consumer send
exactly one hello Interest; neither it nor the completion of its fetch changes sequence numbers or
subscriptions, invokes a callback or sends another Interest. -/
theorem c51_nack (cfg : CCfg) (s s1 s2 : Cons) (hf : s.syncFetcher = some true) (d : Data) (hd : d.contentType = .nack)
    (hfb : d.finalBlock.isSome) (buf : Bytes) (acts : List Cons.Call) (h1 : Cons.step cfg s (.syncSegment d) = .ok s1)
    (h2 : Cons.step cfg s1 (.syncComplete buf acts) = .ok s2) :
    s1.log = s.log ++ [.interest (cfg.syncPrefix ++ [HELLO]) cfg.helloLifetime] ∧ s2.log = s1.log ∧
      (∀ p, s2.getSeqNo p = s.getSeqNo p ∧ s2.isSubscribed p = s.isSubscribed p) ∧
      s2.helloFetcher = some true := by
  simp only [Cons.step, hf, if_true, hfb, hd, Res.ok.injEq] at h1
  subst h1
  simp only [Cons.step, Cons.sendHelloInterest, if_true, Res.ok.injEq] at h2
  subst h2
  exact ⟨rfl, rfl, fun p => ⟨rfl, rfl⟩, rfl⟩

/-- C51, later Data: in every state, a sync Data packet with a FinalBlockId that is not a nack is not taken for
one: no Interest is sent, and the fetch it completes is processed as a reply (its numbers are merged, see
`c46_sync_merge`).  Missing: Data without FinalBlockId (see `c51_false`), which no PSync producer sends. -/
theorem c51_later_partial (cfg : CCfg) (s s1 s2 : Cons) (hf : s.syncFetcher = some true) (d : Data) (hd : d.contentType = .blob)
    (hfb : d.finalBlock.isSome) (buf : Bytes) (h1 : Cons.step cfg s (.syncSegment d) = .ok s1)
    (h2 : Cons.step cfg s1 (.syncComplete buf []) = .ok s2) :
    s1.log = s.log ∧ ∀ p, s2.getSeqNo p = best p (s.getSeqNo p) (announcements buf) := by
  have hs1 : s1 = { s with syncDataName := Name.dropLast d.name 2, contentType := .blob } := by
    simp only [Cons.step, hf, if_true, hfb, hd, Res.ok.injEq] at h1
    rw [if_neg (by decide)] at h1
    rw [← h1, ← hf]
  subst hs1
  exact ⟨rfl, fun p => c46_sync_merge cfg { s with syncDataName := Name.dropLast d.name 2, contentType := .blob } s2 buf []
    hf rfl p (by simp) h2⟩

/-- The full claim of C51 about later Data: Data that is not a nack does not make the consumer send a hello
Interest. -/
def Spec.NotMisread : Prop :=
  ∀ (cfg : CCfg) (s s' : Cons), Cons.Reach cfg s → ∀ d : Data, d.contentType = .blob →
    Cons.step cfg s (.syncSegment d) = .ok s' → s'.log = s.log

/-- C51 is false as stated: after a nack whose fetch does not complete (its FinalBlockId announces another
segment, which times out), sync Data without FinalBlockId is taken for a nack. -/
theorem c51_false : ¬ Spec.NotMisread := by
  intro h
  have key : ∃ s, consRun (subscribed ++ [.syncSegment { ibfData (nameOf [115]) .nack [] with finalBlock := some ⟨50, [1]⟩ },
        .syncError true]) = .ok s ∧
      ((Cons.step sampleCCfg s (.syncSegment { ibfData (nameOf [115]) .blob [] with finalBlock := none })).get?.map fun s' =>
        decide (s'.log = s.log)) = some false := Res.of_get? (by decide +kernel)
  obtain ⟨s, h1, h2⟩ := key
  obtain ⟨s', h3, h4⟩ := Res.of_get? h2
  rw [decide_eq_false_iff_not] at h4
  exact h4 (h sampleCCfg s s' (consRun_reach h1) _ rfl h3)

/-- Non-vacuity for C51: a nack, its completion, then a sync reply after a new hello. -/
example : ((consRun (subscribed ++ [.syncSegment (ibfData (nameOf [115]) .nack []), .syncComplete [] [],
      .helloSegment (ibfData (nameOf [115] ++ [HELLO]) .blob []), .helloComplete (encodeNames [pA.appendNumber 2]) [] [],
      .call .sendSync, .syncSegment (ibfData (nameOf [115]) .blob []), .syncComplete (encodeNames [pA.appendNumber 3]) []])).get?.map
      fun s => (s.getSeqNo pA, notified pA s.log, s.log.map (fun o => match o with
        | .interest n _ => n.length
        | .hello _ => 100
        | _ => 200)))
    = some (some 3, [(1, 2), (3, 3)], [2, 100, 6, 2, 100, 200, 6, 200, 6]) := by decide +kernel

/-! ### C52 -/

/-- How the consumer comes by an IBF: the component of the hello Data name before version and segment
number. -/
theorem c52_ibf_hello (cfg : CCfg) (s s1 s2 : Cons) (hf : s.helloFetcher = some true) (d : Data) (hfb : d.finalBlock.isSome)
    (key : Name) (c v g : Component) (hn : d.name = key ++ [c, v, g]) (buf : Bytes)
    (h1 : Cons.step cfg s (.helloSegment d) = .ok s1) (h2 : Cons.step cfg s1 (.helloComplete buf [] []) = .ok s2) :
    s2.iblt = [c] := by
  simp only [Cons.step, hf, if_true, hfb, Res.ok.injEq] at h1
  subst h1
  simp only [Cons.step, if_true] at h2
  unfold Cons.onHelloData at h2
  simp only [Res.bind_eq_ok, foldRes] at h2
  obtain ⟨st, _, r, _, s3, h4, h3⟩ := h2
  cases h4
  have e : Name.dropLast d.name 2 = key ++ [c] := by
    rw [hn]
    unfold Name.dropLast
    rw [if_pos (by simp), show (key ++ [c, v, g]).length - 2 = (key ++ [c]).length by simp,
      show key ++ [c, v, g] = (key ++ [c]) ++ [v, g] by simp, List.take_left]
  have e2 : List.drop ((key ++ [c]).length - 1) (key ++ [c]) = [c] := by simp
  split at h3
  · simp only [Res.ok.injEq] at h3
    rw [← h3]
    show List.drop (List.length (Name.dropLast d.name 2) - 1) (Name.dropLast d.name 2) = [c]
    rw [e, e2]
  · simp only [Res.ok.injEq] at h3
    rw [← h3]
    show List.drop (List.length (Name.dropLast d.name 2) - 1) (Name.dropLast d.name 2) = [c]
    rw [e, e2]

/-- The same for a sync reply; the next sync Interest is sent with the new IBF. -/
theorem c52_ibf_sync (cfg : CCfg) (s s1 s2 : Cons) (hf : s.syncFetcher = some true) (d : Data) (hfb : d.finalBlock.isSome)
    (hd : d.contentType = .blob) (key : Name) (c v g : Component) (hn : d.name = key ++ [c, v, g]) (buf : Bytes)
    (h1 : Cons.step cfg s (.syncSegment d) = .ok s1) (h2 : Cons.step cfg s1 (.syncComplete buf []) = .ok s2) :
    s2.iblt = [c] ∧ ∃ ext n pre, s2.log = s.log ++ ext ++ [.interest n cfg.syncLifetime] ∧ n = pre ++ [c] := by
  have hs1 : s1 = { s with syncDataName := Name.dropLast d.name 2, contentType := .blob } := by
    simp only [Cons.step, hf, if_true, hfb, hd, Res.ok.injEq] at h1
    rw [if_neg (by decide)] at h1
    rw [← h1, ← hf]
  subst hs1
  simp only [Cons.step, hf, if_true] at h2
  rw [if_neg (by simp)] at h2
  unfold Cons.onSyncData at h2
  simp only [Res.bind_eq_ok, foldRes] at h2
  obtain ⟨st, _, r, _, s3, h3, h4⟩ := h2
  have e : Name.dropLast d.name 2 = key ++ [c] := by
    rw [hn]
    unfold Name.dropLast
    rw [if_pos (by simp), show (key ++ [c, v, g]).length - 2 = (key ++ [c]).length by simp,
      show key ++ [c, v, g] = (key ++ [c]) ++ [v, g] by simp, List.take_left]
  have e2 : List.drop ((key ++ [c]).length - 1) (key ++ [c]) = [c] := by simp
  obtain ⟨_, cs, _, rfl⟩ := Cons.sendSyncInterest_ok h4
  have h5 : s3.iblt = [c] ∧ ∃ ext, s3.log = s.log ++ ext := by
    rw [e, e2] at h3
    split at h3
    · simp only [Res.ok.injEq] at h3
      rw [← h3]
      exact ⟨rfl, [], by simp⟩
    · simp only [Res.ok.injEq] at h3
      rw [← h3]
      exact ⟨rfl, _, rfl⟩
  obtain ⟨h5, ext, h6⟩ := h5
  exact ⟨h5, ext, _, _, by rw [h6], by rw [h5]⟩

/-- The full claim C52. -/
def Spec.FormatAgrees : Prop :=
  ∀ (pcfg : Cfg) (ccfg : CCfg) (bf0 : Bloom) (t : Table) (c : Component) (s s' : Cons) (n : Name) (lt : Nat),
    ccfg.syncPrefix = pcfg.syncPrefix → ccfg.libm = pcfg.libm → ccfg.extraSalt = pcfg.extraSalt → ccfg.bfCount < 2 ^ 32 →
    freshFilter ccfg = .ok bf0 → SizedBf bf0 → Cons.Reach ccfg s →
    Table.initialize pcfg.ibltCodec pcfg.expected c = .ok t → s.iblt = [c] → s.sendSyncInterest ccfg = .ok s' →
    s'.log = s.log ++ [.interest n lt] →
      ∃ bf, SyncFields pcfg n bf t ∧ ∀ q, s.isSubscribed q = true → bf.contains q = .ok true

/-- The sync Interest sent at any moment of a consumer's execution. -/
theorem Cons.Moment.sync_fields (pcfg : Cfg) (ccfg : CCfg) (bf0 : Bloom) (t : Table) (c : Component) (s s' : Cons) (n : Name) (lt : Nat)
    (e1 : ccfg.syncPrefix = pcfg.syncPrefix) (e2 : ccfg.libm = pcfg.libm) (e3 : ccfg.extraSalt = pcfg.extraSalt)
    (hc : ccfg.bfCount < 2 ^ 32) (hb : freshFilter ccfg = .ok bf0) (hz : SizedBf bf0) (hs : Cons.Moment ccfg s)
    (th : Nat) (hth : ccfg.libm.toThousandths ccfg.bfFpp = some th) (hth2 : th < 2 ^ 64)
    (hp : optimalParams ccfg.libm ccfg.bfCount (ccfg.libm.ofThousandths th) = optimalParams ccfg.libm ccfg.bfCount ccfg.bfFpp)
    (ht : Table.initialize pcfg.ibltCodec pcfg.expected c = .ok t) (hi : s.iblt = [c])
    (h : s.sendSyncInterest ccfg = .ok s') (hl : s'.log = s.log ++ [.interest n lt]) :
    ∃ bf, SyncFields pcfg n bf t ∧ (∀ q, bf.contains q = s.bloom.contains q) ∧
      ∀ q, s.isSubscribed q = true → bf.contains q = .ok true := by
  obtain ⟨bf1, hb1, hinv⟩ := hs.inv
  unfold freshFilter at hb
  rw [hb] at hb1
  cases hb1
  obtain ⟨ops, k1, k2⟩ := hinv.bloom
  obtain ⟨_, cs, hcs, rfl⟩ := Cons.sendSyncInterest_ok h
  have hn := List.append_cancel_left hl
  simp only [List.cons.injEq, Out.interest.injEq, and_true] at hn
  obtain ⟨hn, _⟩ := hn
  obtain ⟨c1, c2, c3, th', r1, r2, r3, r4, r5⟩ := c16_round_trip ccfg.libm ccfg.extraSalt ccfg.bfCount hc ccfg.bfFpp bf0 s.bloom ops hb hz k1 cs hcs
  rw [hth] at r4
  cases r4
  obtain ⟨bf, r6, r7⟩ := r5 hp
  have nni : ∀ {c : Component} {x : Nat}, c.toNumber = .ok x → readNni c.value = some x := by
    intro c x hx
    unfold Component.toNumber Res.ofOption at hx
    split at hx
    · rename_i y hy; simp only [Res.ok.injEq] at hx; rw [hy, hx]
    · cases hx
  refine ⟨bf, ⟨c1, c2, c3, c, ccfg.bfCount, th, ?_, nni r2, nni (r3 hth2), ?_, ht⟩, r7, ?_⟩
  · rw [← hn, r1, hi, Cons.syncPrefixName, e1]
    simp
  · rw [Nat.mod_eq_of_lt (by omega), ← e2, ← e3]
    exact r6
  · intro q hq
    rw [r7]
    obtain ⟨b, j1, j2⟩ := c14_no_false_negative bf0 hz ops
    rw [k1] at j1
    cases j1
    exact j2 q ((k2 q).mpr hq)

/-- C52, for probabilities that survive the transmission in thousandths (`hp`, as the default 0.001 does): the
sync Interest sent for an IBF component `c` that the producer reads as `t` has the form the producer expects,
carries `t`, and a filter that answers every question as the consumer's own does, so contains every
subscribed prefix. -/
theorem c52_format_partial (pcfg : Cfg) (ccfg : CCfg) (bf0 : Bloom) (t : Table) (c : Component) (s s' : Cons) (n : Name) (lt : Nat)
    (e1 : ccfg.syncPrefix = pcfg.syncPrefix) (e2 : ccfg.libm = pcfg.libm) (e3 : ccfg.extraSalt = pcfg.extraSalt)
    (hc : ccfg.bfCount < 2 ^ 32) (hb : freshFilter ccfg = .ok bf0) (hz : SizedBf bf0) (hs : Cons.Reach ccfg s)
    (th : Nat) (hth : ccfg.libm.toThousandths ccfg.bfFpp = some th) (hth2 : th < 2 ^ 64)
    (hp : optimalParams ccfg.libm ccfg.bfCount (ccfg.libm.ofThousandths th) = optimalParams ccfg.libm ccfg.bfCount ccfg.bfFpp)
    (ht : Table.initialize pcfg.ibltCodec pcfg.expected c = .ok t) (hi : s.iblt = [c])
    (h : s.sendSyncInterest ccfg = .ok s') (hl : s'.log = s.log ++ [.interest n lt]) :
    ∃ bf, SyncFields pcfg n bf t ∧ (∀ q, bf.contains q = s.bloom.contains q) ∧
      ∀ q, s.isSubscribed q = true → bf.contains q = .ok true :=
  hs.moment.sync_fields pcfg ccfg bf0 t c s s' n lt e1 e2 e3 hc hb hz th hth hth2 hp ht hi h hl

/-- Parameters for 6 elements: probability 0.001 (0x3F50624DD2F1A9FC) needs 86 bits and 10 hashes,
0.0019 (0x3F5F212D77318FC5) needs 78 bits and 9 hashes; the latter is transmitted as 1 thousandth. -/
def coarseLibm : Libm where
  invalidProb := fun _ => false
  currM := fun _ p k => if p = 0x3F50624DD2F1A9FC#64 then (if k = 10 then 86#64 else 1000#64) else (if k = 9 then 78#64 else 1000#64)
  lt := fun a b => a.toNat < b.toNat
  inf := 0x7FF0000000000000#64
  toU32 := fun d => some (d.toNat % 4294967296)
  toThousandths := fun _ => some 1
  ofThousandths := fun _ => 0x3F50624DD2F1A9FC#64

def coarseCCfg : CCfg := { sampleCCfg with bfFpp := 0x3F5F212D77318FC5#64, libm := coarseLibm }
def coarseCfg : Cfg := { sampleCfg with libm := coarseLibm }

/-- C52 is false as stated: with the probability 0.0019 the producer expects a table of 11 bytes, but the
consumer sends 10, so that the producer ignores its sync Interests. -/
theorem c52_false : ¬ Spec.FormatAgrees := by
  intro h
  have key : ∃ s, (Res.bind (Cons.init coarseCCfg) fun s => Cons.run coarseCCfg s [.call .sendHello,
        .helloSegment (ibfData (nameOf [115] ++ [HELLO]) .blob []), .helloComplete (encodeNames []) [] []]) = .ok s ∧
      (s.iblt, (s.sendSyncInterest coarseCCfg).get?.map fun s' => (decide (s'.log.take s.log.length = s.log), s'.log.drop s.log.length))
        = ([⟨8, List.replicate 72 0⟩], some (true, [.interest (nameOf [115] ++ [SYNC, ⟨8, [6]⟩, ⟨8, [1]⟩,
            ⟨8, List.replicate 10 0⟩, ⟨8, List.replicate 72 0⟩]) 1000])) := Res.of_get? (by decide +kernel)
  obtain ⟨s, h1, h2⟩ := key
  rw [Res.bind_eq_ok] at h1
  obtain ⟨s0, h0, h1⟩ := h1
  simp only [Prod.mk.injEq] at h2
  obtain ⟨h2, h3⟩ := h2
  obtain ⟨s', h4, h5⟩ := Res.of_get? h3
  simp only [Prod.mk.injEq, decide_eq_true_eq] at h5
  have hl : s'.log = s.log ++ [.interest (nameOf [115] ++ [SYNC, ⟨8, [6]⟩, ⟨8, [1]⟩,
            ⟨8, List.replicate 10 0⟩, ⟨8, List.replicate 72 0⟩]) 1000] := by
    conv_lhs => rw [← List.take_append_drop s.log.length s'.log, h5.1, h5.2]
  obtain ⟨t, ht⟩ : ∃ t, Table.initialize Codec.none 4 ⟨8, List.replicate 72 0⟩ = .ok t := by
    obtain ⟨t, ht, _⟩ := Res.of_get? (x := Table.initialize Codec.none 4 ⟨8, List.replicate 72 0⟩) (f := List.length) (b := 6)
      (by decide +kernel)
    exact ⟨t, ht⟩
  obtain ⟨bf0, hb, hsz⟩ : ∃ bf0, freshFilter coarseCCfg = .ok bf0 ∧ (bf0.tableSize, bf0.bits.length) = (80, 10) :=
    Res.of_get? (by decide +kernel)
  simp only [Prod.mk.injEq] at hsz
  obtain ⟨bf, ⟨c1, c2, c3, c4, count, fpp, hn, r1, r2, r3, _⟩, _⟩ := h coarseCfg coarseCCfg bf0 t ⟨8, List.replicate 72 0⟩ s s' _ _
    rfl rfl rfl (by decide) hb ⟨by omega, by omega⟩ ⟨s0, _, h0, h1⟩ ht h2 h4 hl
  have hn' := List.append_cancel_left (show nameOf [115] ++ _ = nameOf [115] ++ _ from hn)
  simp only [List.cons.injEq, and_true, true_and] at hn'
  obtain ⟨rfl, rfl, rfl, rfl⟩ := hn'
  have e6 : readNni [6] = some 6 := by decide
  cases e6.symm.trans r1
  have : (Bloom.ofComponent coarseLibm (fun _ => 0#32) 6 0x3F50624DD2F1A9FC#64 ⟨8, List.replicate 10 0⟩).get? = none := by decide +kernel
  rw [show Bloom.ofComponent coarseLibm (fun _ => 0#32) 6 0x3F50624DD2F1A9FC#64 ⟨8, List.replicate 10 0⟩ = .ok bf from r3] at this
  cases this

/-- Non-vacuity for C52: the default probability survives the transmission. -/
example : sampleCCfg.libm.toThousandths sampleCCfg.bfFpp = some 1 ∧
    optimalParams sampleCCfg.libm sampleCCfg.bfCount (sampleCCfg.libm.ofThousandths 1)
      = optimalParams sampleCCfg.libm sampleCCfg.bfCount sampleCCfg.bfFpp := ⟨rfl, rfl⟩

end PSync
