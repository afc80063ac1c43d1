import Verif.Proofs.ConsumerName
import Verif.Proofs.PacketSize
import Verif.Spec.ConsumerSize
import Verif.Props.Consumer
/-!
Property C105: the Interests of a consumer fit into a packet if the IBFs it is told do.
-/
namespace PSync
open Spec

namespace Cons

/-- Everything the consumer takes its IBF from consists of components of kind `Q`, and the sync Interests end with one. -/
structure Fed (cfg : CCfg) (Q : Component → Prop) (s : Cons) : Prop where
  iblt : ∀ c ∈ s.iblt, Q c
  hello : ∀ c ∈ s.helloDataName, Q c
  sync : ∀ c ∈ s.syncDataName, Q c
  log : ∀ n lt, Out.interest n lt ∈ s.log → n = cfg.syncPrefix ++ [HELLO] ∨ ∀ c, n.getLast? = some c → Q c

variable {cfg : CCfg} {Q : Component → Prop}

theorem Fed.congr {s s' : Cons} (h : Fed cfg Q s) (h1 : s'.iblt = s.iblt) (h2 : s'.helloDataName = s.helloDataName)
    (h3 : s'.syncDataName = s.syncDataName) (h4 : s'.log = s.log) : Fed cfg Q s' := by
  refine ⟨?_, ?_, ?_, ?_⟩
  · rw [h1]; exact h.iblt
  · rw [h2]; exact h.hello
  · rw [h3]; exact h.sync
  · rw [h4]; exact h.log

theorem Fed.sendHello {s : Cons} (h : Fed cfg Q s) : Fed cfg Q (s.sendHelloInterest cfg) := by
  refine ⟨h.iblt, h.hello, h.sync, fun n lt hn => ?_⟩
  simp only [sendHelloInterest, List.mem_append, List.mem_singleton] at hn
  rcases hn with hn | hn
  · exact h.log n lt hn
  · cases hn; exact .inl rfl

theorem Fed.sendSync {s s' : Cons} (h : Fed cfg Q s) (hx : s.sendSyncInterest cfg = .ok s') : Fed cfg Q s' := by
  obtain ⟨h1, cs, h2, rfl⟩ := sendSyncInterest_ok hx
  refine ⟨h.iblt, h.hello, h.sync, fun n lt hn => ?_⟩
  simp only [List.mem_append, List.mem_singleton] at hn
  rcases hn with hn | hn
  · exact h.log n lt hn
  · cases hn
    refine .inr fun c hc => h.iblt c ?_
    rw [List.getLast?_append_of_ne_nil _ h1] at hc
    exact List.mem_of_getLast? hc

theorem Fed.emit {s : Cons} {o : Out} (h : Fed cfg Q s) (ho : ∀ n lt, o ≠ .interest n lt) : Fed cfg Q (s.emit o) := by
  refine ⟨h.iblt, h.hello, h.sync, fun n lt hn => ?_⟩
  simp only [Cons.emit, List.mem_append, List.mem_singleton] at hn
  rcases hn with hn | hn
  · exact h.log n lt hn
  · exact absurd hn.symm (ho n lt)

theorem Fed.call {s s' : Cons} (h : Fed cfg Q s) {c : Call} (hx : Cons.call cfg s c = .ok s') : Fed cfg Q s' := by
  cases c with
  | addSubscription p seq cb =>
    simp only [Cons.call, Res.bind_eq_ok, Res.ok.injEq] at hx
    obtain ⟨⟨r, s1⟩, h1, rfl⟩ := hx
    unfold Cons.addSubscription at h1
    split at h1
    · cases h1; exact h
    · simp only [Res.bind_eq_ok, Res.ok.injEq] at h1
      obtain ⟨bf, _, h1⟩ := h1
      cases h1
      have k : Fed cfg Q { s with prefixes := s.prefixes.set p (seq % U64), subs := s.subs.set p (), bloom := bf } :=
        ⟨h.iblt, h.hello, h.sync, h.log⟩
      simp only
      split
      · exact k.emit (by intro n lt e; cases e)
      · exact k
  | removeSubscription p =>
    simp only [Cons.call, Res.bind_eq_ok, Res.ok.injEq] at hx
    obtain ⟨⟨r, s1⟩, h1, rfl⟩ := hx
    rcases removeSubscription_ok h1 with ⟨_, _, rfl⟩ | ⟨_, _, bf, hbf, rfl⟩
    · exact h
    · exact ⟨h.iblt, h.hello, h.sync, h.log⟩
  | sendHello =>
    simp only [Cons.call, Res.ok.injEq] at hx
    subst hx
    exact h.sendHello
  | sendSync => exact h.sendSync hx
  | stop =>
    simp only [Cons.call, Res.ok.injEq] at hx
    subst hx
    exact ⟨h.iblt, h.hello, h.sync, h.log⟩

theorem Fed.calls {s s' : Cons} (h : Fed cfg Q s) {cs : List Call} (hx : foldRes (Cons.call cfg) s cs = .ok s') : Fed cfg Q s' :=
  foldRes_inv (P := Fed cfg Q) (f := Cons.call cfg) cs (fun _ _ _ _ hs hc => hs.call hc) h hx

theorem mem_dropLast {n : Name} {k : Nat} {c : Component} (h : c ∈ Name.dropLast n k) : c ∈ n := by
  unfold Name.dropLast at h
  split at h
  · exact List.mem_of_mem_take h
  · exact h

theorem Fed.step {s s' : Cons} (h : Fed cfg Q s) {op : Op} (hq : ∀ d, op = .helloSegment d ∨ op = .syncSegment d → ∀ c ∈ d.name, Q c)
    (hx : Cons.step cfg s op = .ok s') : Fed cfg Q s' := by
  cases op with
  | call c => exact h.call hx
  | helloSegment d =>
    simp only [Cons.step] at hx
    split at hx
    · cases hx; split
      · exact ⟨h.iblt, fun c hc => hq d (.inl rfl) c (mem_dropLast hc), h.sync, h.log⟩
      · exact h
    · cases hx; exact h
  | helloComplete buf a1 a2 =>
    simp only [Cons.step] at hx
    split at hx
    · simp only [onHelloData, Res.bind_eq_ok] at hx
      obtain ⟨st, _, r, _, s1, h1, h2⟩ := hx
      have k1 : Fed cfg Q s1 := by
        refine Fed.calls ?_ h1
        refine Fed.emit ?_ (by intro n lt e; cases e)
        exact ⟨fun c hc => h.hello c (List.mem_of_mem_drop hc), h.hello, h.sync, h.log⟩
      split at h2
      · cases h2; exact k1
      · exact Fed.calls (k1.emit (by intro n lt e; cases e)) h2
    · cases hx; exact h
  | helloError =>
    simp only [Cons.step] at hx
    split at hx <;> (cases hx; first | exact h | exact h.congr rfl rfl rfl rfl)
  | syncSegment d =>
    simp only [Cons.step] at hx
    split at hx
    · cases hx
      have k1 : ∀ x : Cons, Fed cfg Q x → Fed cfg Q (if x.contentType = .nack then x.sendHelloInterest cfg else x) := by
        intro x hx
        split
        · exact hx.sendHello
        · exact hx
      apply k1
      split
      · exact ⟨h.iblt, h.hello, fun c hc => hq d (.inr rfl) c (mem_dropLast hc), h.log⟩
      · exact h
    · cases hx; exact h
  | syncComplete buf acts =>
    simp only [Cons.step] at hx
    split at hx
    · split at hx
      · cases hx; exact h.congr rfl rfl rfl rfl
      · simp only [onSyncData, Res.bind_eq_ok] at hx
        obtain ⟨st, _, r, _, s1, h1, h2⟩ := hx
        refine Fed.sendSync ?_ h2
        split at h1
        · cases h1; exact ⟨fun c hc => h.sync c (List.mem_of_mem_drop hc), h.hello, h.sync, h.log⟩
        · refine Fed.calls ?_ h1
          refine Fed.emit ?_ (by intro n lt e; cases e)
          exact ⟨fun c hc => h.sync c (List.mem_of_mem_drop hc), h.hello, h.sync, h.log⟩
    · cases hx; exact h
  | syncError timeout =>
    simp only [Cons.step] at hx
    split at hx
    · split at hx
      · exact Fed.sendSync (s := { s with syncFetcher := some false }) ⟨h.iblt, h.hello, h.sync, h.log⟩ hx
      · cases hx; exact h.congr rfl rfl rfl rfl
    · cases hx; exact h
  | tick t =>
    simp only [Cons.step, Res.ok.injEq] at hx
    subst hx
    split
    · exact h.congr rfl rfl rfl rfl
    · exact h
  | fire =>
    simp only [Cons.step] at hx
    split at hx
    · cases hx; exact h
    · cases hx; exact Fed.sendHello (h.congr rfl rfl rfl rfl)
    · refine Fed.sendSync ?_ hx
      exact ⟨h.iblt, h.hello, h.sync, h.log⟩

/-- Every sync Interest ends with a component of the name of a Data that was received. -/
theorem run_fed {s0 s : Cons} {ops : List Op} (h0 : Cons.init cfg = .ok s0) (h : Cons.run cfg s0 ops = .ok s)
    (hq : ∀ d, Received ops d → ∀ c ∈ d.name, Q c) : Fed cfg Q s := by
  unfold init at h0
  simp only [Res.bind_eq_ok, Res.ok.injEq] at h0
  obtain ⟨bf, hb, rfl⟩ := h0
  refine foldRes_inv (P := Fed cfg Q) (f := Cons.step cfg) ops (fun _ op _ hm hs h => hs.step (fun d hd => hq d ?_) h) ?_ h
  · rcases hd with rfl | rfl
    · exact .inl hm
    · exact .inr hm
  · exact ⟨by simp, by simp, by simp, by simp⟩

end Cons

/-- C105, partial: if no component of the names received takes more than `I` bytes, the name of an Interest takes at most `I` bytes more
than the prefix and the filter, plus 30.  (Missing: Data that are within the limit but have a larger IBF, `c105_false`.) -/
theorem c105_name_partial (cfg : CCfg) (I : Nat) (s0 s : Cons) (ops : List Cons.Op) (h0 : Cons.init cfg = .ok s0)
    (h : Cons.run cfg s0 ops = .ok s) (hb : s0.bloom.bits.length ≤ 65535)
    (hr : ∀ d, Received ops d → ∀ c ∈ d.name, c.encode.length ≤ I) (n : Name) (t : Nat) (hn : Out.interest n t ∈ s.log) :
    n.wireValue.length ≤ cfg.syncPrefix.wireValue.length + s0.bloom.bits.length + I + 30 := by
  have hf := Cons.run_fed (Q := fun c => c.encode.length ≤ I) h0 h hr
  obtain ⟨bf0, hbf, hsh⟩ := Cons.reach_asking (⟨s0, ops, h0, h⟩ : Cons.Reach cfg s)
  have hbb : s0.bloom = bf0 := by
    unfold Cons.init at h0
    unfold freshFilter at hbf
    rw [hbf] at h0
    cases h0
    rfl
  rcases hsh.log n t hn with rfl | ⟨bf, th, c, hbs, _, rfl⟩
  · rw [wireValue_append, wireValue_one, List.length_append]
    have : HELLO.encode.length = 7 := by decide
    omega
  · have hI : c.encode.length ≤ I := by
      rcases hf.log _ t hn with hh | hh
      · have := congrArg List.length hh
        simp at this
      · exact hh c (by simp)
    have hlen : bf.bits.length = s0.bloom.bits.length := by rw [hbs.2, hbb]
    rw [wireValue_append, List.length_append]
    have e0 : SYNC.encode.length = 6 := by decide
    have e1 := tlv_nni (ty := 8) (by decide) bf0.projected
    have e2 := tlv_nni (ty := 8) (by decide) th
    have e3 : (Tlv.encode ⟨8, bf.bits⟩).length ≤ 4 + bf.bits.length :=
      tlv_le (t := ⟨8, bf.bits⟩) (Nat.le_of_ble_eq_true rfl) (by simp only; omega)
    simp only [Name.wireValue, List.flatMap_cons, List.flatMap_nil, List.append_nil, List.length_append]
    omega

/-- C105, partial: so with a prefix, a filter and IBFs of together at most 8742 bytes everything fits. -/
theorem c105_partial (cfg : CCfg) (I : Nat) (s0 s : Cons) (ops : List Cons.Op) (h0 : Cons.init cfg = .ok s0)
    (h : Cons.run cfg s0 ops = .ok s) (hsz : cfg.syncPrefix.wireValue.length + s0.bloom.bits.length + I ≤ 8742)
    (hr : ∀ d, Received ops d → ∀ c ∈ d.name, c.encode.length ≤ I) (n : Name) (t nonce : Nat) (hn : Out.interest n t ∈ s.log) :
    (interestWire n nonce t).length ≤ packetLimit := by
  have h1 := c105_name_partial cfg I s0 s ops h0 h (by omega) hr n t hn
  have := interestWire_le (n := n) (nonce := nonce) (t := t) (by omega)
  simp only [packetLimit]
  omega

/-- The consumer of Props/Consumer.lean with room for 60 subscriptions: 863 bits. -/
def roomyCCfg : CCfg := { sampleCCfg with
  bfCount := 60, libm := { sampleLibm with currM := fun _ _ k => if k = 10 then 863#64 else 10000#64 } }

/-- A hello reply with an IBF of 8650 bytes. -/
def hugeHello : Data :=
  ⟨roomyCCfg.syncPrefix ++ [HELLO, ⟨8, List.replicate 8650 0⟩, ⟨54, [1]⟩, ⟨50, [0]⟩], .blob, encodeNames [], 1000, some ⟨50, [0]⟩⟩

/-- The consumer gets it and sends a sync Interest. -/
def hugeOps : List Cons.Op := [.call .sendHello, .helloSegment hugeHello, .helloComplete (encodeNames []) [] [], .call .sendSync]

theorem huge_run : ((Cons.init roomyCCfg).bind fun s0 => (Cons.run roomyCCfg s0 hugeOps).bind fun s => .ok (s0, s)).get?.map
    (fun r => (decide (roomyCCfg.syncPrefix.wireValue.length + r.1.bloom.bits.length ≤ 400),
      r.2.log.any fun o => match o with
        | .interest n t => decide (packetLimit < (interestWire n 0 t).length)
        | _ => false)) = some (true, true) := by
  decide +kernel

theorem huge_size : (dataWire (List.replicate 39 0#8) hugeHello).length ≤ packetLimit := by
  decide +kernel

/-- C105 as stated is false: a hello reply within the limit, with an IBF of 8650 bytes, makes a consumer with room for 60 subscriptions send
a sync Interest above the limit.  The face throws. -/
theorem c105_false : ¬ ConsumerFits := by
  intro h
  obtain ⟨⟨s0, s⟩, h1, h2⟩ := Res.of_get? huge_run
  simp only [Res.bind_eq_ok, Res.ok.injEq] at h1
  obtain ⟨a, h3, b, h4, h5⟩ := h1
  cases h5
  simp only [Prod.mk.injEq, decide_eq_true_eq] at h2
  obtain ⟨o, ho, hi⟩ := List.any_eq_true.1 h2.2
  match o, ho, hi with
  | .interest n t, ho, hi =>
    have := h roomyCCfg (List.replicate 39 0#8) s0 s hugeOps h3 h4 (by decide) h2.1 (by
      intro d hd
      rcases hd with hd | hd <;> simp only [hugeOps, List.mem_cons, reduceCtorEq, Cons.Op.helloSegment.injEq, List.not_mem_nil, or_false,
        false_or] at hd
      subst hd
      exact huge_size) n t 0 ho
    have hi : packetLimit < (interestWire n 0 t).length := of_decide_eq_true hi
    omega

/-- Non-vacuity for `c105_partial`: the run `subscribed` with IBFs of 72 bytes. -/
example : ∃ s0 s n t, Cons.init sampleCCfg = .ok s0 ∧ Cons.run sampleCCfg s0 subscribed = .ok s ∧
    sampleCCfg.syncPrefix.wireValue.length + s0.bloom.bits.length + 74 ≤ 8742 ∧
    (∀ d, Received subscribed d → ∀ c ∈ d.name, c.encode.length ≤ 74) ∧ Out.interest n t ∈ s.log ∧ n ≠ sampleCCfg.syncPrefix ++ [HELLO] := by
  have h : ((Cons.init sampleCCfg).bind fun s0 => (Cons.run sampleCCfg s0 subscribed).bind fun s => .ok (s0, s)).get?.map
      (fun r => (decide (sampleCCfg.syncPrefix.wireValue.length + r.1.bloom.bits.length + 74 ≤ 8742),
        r.2.log.any fun o => match o with
          | .interest n _ => decide (n ≠ sampleCCfg.syncPrefix ++ [HELLO])
          | _ => false)) = some (true, true) := by decide +kernel
  obtain ⟨⟨s0, s⟩, h1, h2⟩ := Res.of_get? h
  simp only [Res.bind_eq_ok, Res.ok.injEq] at h1
  obtain ⟨a, h3, b, h4, h5⟩ := h1
  cases h5
  simp only [Prod.mk.injEq, decide_eq_true_eq] at h2
  obtain ⟨o, ho, hi⟩ := List.any_eq_true.1 h2.2
  match o, ho, hi with
  | .interest n t, ho, hi =>
    refine ⟨s0, s, n, t, h3, h4, h2.1, ?_, ho, of_decide_eq_true hi⟩
    intro d hd
    rcases hd with hd | hd <;> simp only [subscribed, List.mem_cons, reduceCtorEq, Cons.Op.helloSegment.injEq, List.not_mem_nil, or_false,
      false_or] at hd
    subst hd
    decide

end PSync
