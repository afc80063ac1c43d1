import Verif.Spec.PubSubPrompt
import Verif.Props.ConsumerPace
import Verif.Props.PubSubLive
import Verif.Props.Stale
/-!
Exchanges between a producer and a consumer in a bounded time.
-/
namespace PSync
open Spec

/-- The Interests a consumer sends. -/
theorem Cons.moment_asks {cfg : CCfg} {s : Cons} (h : Cons.Moment cfg s) : ∀ n lt, Out.interest n lt ∈ s.log →
    n = cfg.syncPrefix ++ [HELLO] ∨ (cfg.syncPrefix ++ [SYNC]) <+: n := by
  obtain ⟨s0, h0, hm⟩ := h
  induction hm with
  | refl =>
    intro n lt hn
    unfold Cons.init at h0
    simp only [Res.bind_eq_ok, Res.ok.injEq] at h0
    obtain ⟨bf, _, rfl⟩ := h0
    simp at hn
  | tail _ hstep ih =>
    intro n lt hn
    cases hstep with
    | call c _ hc =>
      cases c with
      | addSubscription p q cb =>
        simp only [Cons.call, Res.bind_eq_ok, Res.ok.injEq] at hc
        obtain ⟨⟨r, t⟩, h1, rfl⟩ := hc
        unfold Cons.addSubscription at h1
        split at h1
        · simp only [Res.ok.injEq, Prod.mk.injEq] at h1; obtain ⟨_, rfl⟩ := h1; exact ih n lt hn
        · simp only [Res.bind_eq_ok, Res.ok.injEq, Prod.mk.injEq] at h1
          obtain ⟨bf, _, _, rfl⟩ := h1
          refine ih n lt ?_
          split at hn
          · simpa [Cons.emit] using hn
          · exact hn
      | removeSubscription p =>
        simp only [Cons.call, Res.bind_eq_ok, Res.ok.injEq] at hc
        obtain ⟨⟨r, t⟩, h1, rfl⟩ := hc
        rcases Cons.removeSubscription_ok h1 with ⟨_, _, rfl⟩ | ⟨_, _, bf, _, rfl⟩ <;> exact ih n lt hn
      | sendHello =>
        simp only [Cons.call, Res.ok.injEq] at hc
        subst hc
        simp only [Cons.sendHelloInterest, List.mem_append, List.mem_singleton, Out.interest.injEq] at hn
        rcases hn with hn | ⟨rfl, _⟩
        · exact ih n lt hn
        · exact .inl rfl
      | sendSync =>
        obtain ⟨_, cs, _, rfl⟩ := Cons.sendSyncInterest_ok (show Cons.sendSyncInterest cfg _ = .ok _ from hc)
        simp only [List.mem_append, List.mem_singleton, Out.interest.injEq] at hn
        rcases hn with hn | ⟨rfl, _⟩
        · exact ih n lt hn
        · right
          unfold Cons.syncPrefixName
          rw [List.append_assoc (cfg.syncPrefix ++ [SYNC])]
          exact List.prefix_append _ _
      | stop =>
        simp only [Cons.call, Res.ok.injEq] at hc
        subst hc
        exact ih n lt hn
    | helloData names r ib _ => exact ih n lt hn
    | syncData names r ib _ => exact ih n lt hn
    | notify us => exact ih n lt (by simpa [Cons.emit] using hn)
    | hello m => exact ih n lt (by simpa [Cons.emit] using hn)
    | internal _ _ _ _ h5 => exact ih n lt (by rw [← h5]; exact hn)

theorem Cons.step_time {cfg : CCfg} {s s' : Cons} {op : Cons.Op} (h : Cons.step cfg s op = .ok s') :
    s.now ≤ s'.now ∧ ((∀ t, op ≠ .tick t) → s'.now = s.now) := by
  have key : s'.now = s.now → s.now ≤ s'.now ∧ ((∀ t, op ≠ .tick t) → s'.now = s.now) := fun e => ⟨by omega, fun _ => e⟩
  cases op with
  | call c => exact key (Cons.call_time h).1
  | helloSegment d =>
    simp only [Cons.step] at h
    refine key ?_
    split at h
    · rw [Res.ok.injEq] at h; subst h; split <;> rfl
    · cases h; rfl
  | helloComplete buf a1 a2 =>
    simp only [Cons.step] at h
    refine key ?_
    split at h
    · exact (Cons.onHelloData_time h).1
    · cases h; rfl
  | helloError =>
    simp only [Cons.step] at h
    refine key ?_
    split at h <;> (cases h; rfl)
  | syncSegment d =>
    simp only [Cons.step] at h
    refine key ?_
    split at h
    · rw [Res.ok.injEq] at h
      subst h
      simp only [Cons.sendHelloInterest]
      split <;> split <;> rfl
    · cases h; rfl
  | syncComplete buf acts =>
    simp only [Cons.step] at h
    refine key ?_
    split at h
    · split at h
      · cases h; rfl
      · exact (Cons.onSyncData_time h).1
    · cases h; rfl
  | syncError timeout =>
    simp only [Cons.step] at h
    refine key ?_
    split at h
    · split at h
      · obtain ⟨_, cs, _, rfl⟩ := Cons.sendSyncInterest_ok h; rfl
      · cases h; rfl
    · cases h; rfl
  | tick t =>
    simp only [Cons.step, Res.ok.injEq] at h
    refine ⟨?_, fun ht => absurd rfl (ht t)⟩
    subst h
    split
    · rename_i hc
      simp only [Bool.and_eq_true, decide_eq_true_eq] at hc
      exact hc.1
    · exact le_refl _
  | fire =>
    simp only [Cons.step] at h
    refine key ?_
    split at h
    · cases h; rfl
    · cases h; rfl
    · obtain ⟨_, cs, _, rfl⟩ := Cons.sendSyncInterest_ok h; rfl

theorem mem_askedUnder {pre n : Name} {log : List Out} : n ∈ askedUnder pre log ↔ pre <+: n ∧ ∃ lt, Out.interest n lt ∈ log := by
  unfold askedUnder
  simp only [List.mem_filterMap]
  constructor
  · rintro ⟨o, ho, h1⟩
    split at h1
    · split at h1
      · rename_i hp
        cases h1
        exact ⟨List.isPrefixOf_iff_prefix.mp hp, _, ho⟩
      · cases h1
    · cases h1
  · rintro ⟨hp, lt, ho⟩
    exact ⟨_, ho, by simp [hp]⟩

/-- A hello Interest is answered at once. -/
theorem Part.hello_answered {cfg : Cfg} {s s' : Part} {i : Interest} (hn : i.name = cfg.syncPrefix ++ [HELLO])
    (h : Part.step cfg s (.recvInterest i) = .ok s') : ∃ d, s'.log = s.log ++ [Out.data d] := by
  have hp : (cfg.syncPrefix ++ [HELLO]).isPrefixOf i.name = true := by rw [List.isPrefixOf_iff_prefix, hn]; exact List.prefix_refl _
  simp only [Part.step, hp, if_true] at h
  unfold Part.onHelloInterest at h
  split at h
  · cases h; exact ⟨_, rfl⟩
  · simp only [Res.bind_eq_ok] at h
    obtain ⟨last, h1, c4, h2, h⟩ := h
    have hl : last = HELLO := by
      rw [hn] at h1
      have h2 := getFromEnd_mid cfg.syncPrefix HELLO []
      rw [show [].length + 1 = 1 from rfl, h1, Res.ok.injEq] at h2
      exact h2
    rw [if_pos hl] at h2
    cases h2
    rw [if_neg (by simp)] at h
    simp only [Res.bind_eq_ok] at h
    obtain ⟨c, _, h⟩ := h
    obtain ⟨r, hr, rfl⟩ := Part.publish_ok h
    obtain ⟨v, segs, hseg, hds⟩ := publish_sent hr
    obtain ⟨d, ds, rfl⟩ := List.exists_cons_of_ne_nil (List.ne_nil_of_length_pos hseg.nonempty)
    refine ⟨d, ?_⟩
    rw [hds, hn]
    simp [asked, HELLO, TlvType.generic]

namespace Spec.PSRun
variable {pc : Cfg} {cc : CCfg} {P : Nat → Part} {C : Nat → Cons} {what : Nat → PSEv} {len : Nat}

/-- The events at the producer among the first `n`. -/
def prodOps (what : Nat → PSEv) : Nat → List Part.Op
  | 0 => []
  | n + 1 => match what n with
    | .prod op => prodOps what n ++ [op]
    | .cons _ => prodOps what n

theorem prodOps_run (h : PSRun pc cc P C what len) : ∀ {n}, n ≤ len → Part.run pc (Part.init pc) (prodOps what n) = .ok (P n) := by
  intro n
  induction n with
  | zero => intro _; rw [h.initP]; rfl
  | succ n ih =>
    intro hn
    cases h.step n (by omega) with
    | prod op hw hs _ => simp only [prodOps, hw]; exact Part.run_snoc (ih (by omega)) hs
    | cons op hw _ hs _ _ => simp only [prodOps, hw]; rw [hs]; exact ih (by omega)

theorem prodOps_prefix : ∀ {n} {pre : List Part.Op}, pre <+: prodOps what n → ∃ m ≤ n, prodOps what m = pre := by
  intro n
  induction n with
  | zero => intro pre h; exact ⟨0, le_refl _, by simpa [prodOps] using h.eq_of_length_le (by simp [prodOps]) |>.symm⟩
  | succ n ih =>
    intro pre h
    simp only [prodOps] at h
    split at h
    · rename_i op hw
      rcases List.prefix_concat_iff.mp h with rfl | h1
      · exact ⟨n + 1, le_refl _, by simp only [prodOps, hw]⟩
      · obtain ⟨m, h2, h3⟩ := ih h1
        exact ⟨m, by omega, h3⟩
    · obtain ⟨m, h2, h3⟩ := ih h
      exact ⟨m, by omega, h3⟩

theorem nowP (h : PSRun pc cc P C what len) {m n : Nat} (hmn : m ≤ n) (hn : n ≤ len) : (P m).now ≤ (P n).now := by
  induction n, hmn using Nat.le_induction with
  | base => exact le_refl _
  | succ n hmn ih =>
    refine le_trans (ih (by omega)) ?_
    cases h.step n (by omega) with
    | prod op _ hs _ => exact (Part.step_clocked (Part.run_aged (h.prodOps_run (n := n) (by omega))).clocked hs).2.1
    | cons op _ _ hs _ _ => rw [hs]

theorem seqP (h : PSRun pc cc P C what len) (hrem : ∀ k < len, ∀ p, what k ≠ .prod (.removeUserNode p)) {m n : Nat} (hmn : m ≤ n)
    (hn : n ≤ len) {p : Name} {x : Nat} (hx : (P m).base.getSeqNo p = some x) : ∃ y, (P n).base.getSeqNo p = some y ∧ x ≤ y := by
  induction n, hmn using Nat.le_induction with
  | base => exact ⟨x, hx, le_refl _⟩
  | succ n hmn ih =>
    obtain ⟨y, h1, h2⟩ := ih (by omega)
    cases h.step n (by omega) with
    | prod op hw hs _ =>
      obtain ⟨z, h3, h4⟩ := c18_partial_monotone pc (P n) (P (n + 1)) [op] (by simp [Part.run, foldRes, hs]) p (by
        intro o ho hr
        simp only [List.mem_singleton] at ho
        subst ho
        cases o with
        | removeUserNode q => exact hrem n (by omega) q hw
        | _ => exact hr) y h1
      exact ⟨z, h3, by omega⟩
    | cons op _ _ hs _ _ => rw [hs]; exact ⟨y, h1, h2⟩

theorem upToDate_past (h : PSRun pc cc P C what len) (hrem : ∀ k < len, ∀ p, what k ≠ .prod (.removeUserNode p)) {m n : Nat} (hmn : m ≤ n)
    (hn : n ≤ len) {s : Cons} (hu : UpToDate s (P n)) : UpToDate s (P m) := by
  intro p x hp hx
  obtain ⟨y, h1, h2⟩ := h.seqP hrem hmn hn hx
  obtain ⟨z, h3, h4⟩ := hu p y hp h1
  exact ⟨z, h3, by omega⟩

/-- What the consumer does. -/
def consOp (what : Nat → PSEv) (n : Nat) : Cons.Op := match what n with
  | .cons op => op
  | .prod _ => .tick 0

theorem asCRun (h : PSRun pc cc P C what len) : CRun cc C (consOp what) len := by
  refine ⟨h.initC, fun n hn => ?_, fun n hn buf acts hw => ?_⟩
  · cases h.step n hn with
    | prod op hw _ hs =>
      simp only [consOp, hw, hs, Cons.step, Res.ok.injEq]
      split
      · rename_i ht
        simp only [Nat.le_zero_eq, Bool.and_eq_true, decide_eq_true_eq] at ht
        rw [← ht.1]
      · rfl
    | cons op hw hs _ _ _ => simp only [consOp, hw]; exact hs
  · cases h.step n hn with
    | prod op hw' _ hs => simp [consOp, hw'] at hw
    | cons op hw' hs _ hsync _ =>
      simp only [consOp, hw'] at hw
      obtain ⟨m, hmn, name, segs, h1, h2, h3, h4, h5⟩ := hsync buf acts hw
      obtain ⟨d, hd, hfb⟩ := h4.final
      obtain ⟨k, k1, k2, k3⟩ := (h5 d).mp hd
      refine ⟨k, k2, d, by simp only [consOp, k3], by rw [hfb]; rfl, ?_⟩
      have up : ∀ {a b}, a ≤ b → b ≤ len → askedUnder (cc.syncPrefix ++ [SYNC]) (C a).log <+: askedUnder (cc.syncPrefix ++ [SYNC]) (C b).log := by
        intro a b hab hb
        induction b, hab using Nat.le_induction with
        | base => exact List.prefix_refl _
        | succ b hab ih => exact (ih (by omega)).trans (h.askedC (by omega) _)
      have p1 := up (a := m + 1) (b := k + 1) (by omega) (by omega)
      have p2 := up (a := k + 1) (b := n) (by omega) (by omega)
      rw [h2] at p2 ⊢
      exact p2.eq_of_length_le p1.length_le

/-- Where a packet comes from. -/
theorem madeAt (h : PSRun pc cc P C what len) {a : Nat} (ha : a < len) {op : Part.Op} (hw : what a = .prod op) {d : Data}
    (hd : Out.data d ∈ (P (a + 1)).log.drop (P a).log.length) : (d.contentType = .nack ∧ d.finalBlock.isSome ∧ (pc.syncPrefix ++ [SYNC]) <+: d.name) ∨
    ∃ r ≤ a + 1, (P (a + 1)).now ≤ (P r).now + max pc.freshness pc.helloFreshness + pc.lag ∧
      d.contentType = .blob ∧ ∃ c nm v g, (P r).base.iblt.toComponent pc.ibltCodec = .ok c ∧ d.name = nm ++ [c, v, g] := by
  cases h.step a ha with
  | cons op' hw' _ _ _ _ => rw [hw] at hw'; cases hw'
  | prod op' hw' hs hC =>
    rw [hw] at hw'
    cases hw'
    obtain ⟨ext, h1, h2⟩ := Part.step_fresh (h.prodOps_run (n := a) (by omega)) hs
    rw [h1, List.drop_left] at hd
    rcases h2 d hd with ⟨b, key, _, _, ⟨c1, c2, c3, c4, _, _, en, _⟩, hn⟩ | ⟨pre, post, r, ⟨h4, h5, h6, nm, v, buf, fr, h7, h8⟩, hlt⟩
    · left
      unfold nackData at hn
      simp only [Res.bind_eq_ok, Res.ok.injEq] at hn
      obtain ⟨c, _, rfl⟩ := hn
      refine ⟨rfl, rfl, ?_⟩
      rw [en]
      exact ⟨[c1, c2, c3, c4, c] ++ [⟨50, nniBytes 0⟩], by simp [Name.appendSegment, TlvType.segment]⟩
    · right
      have e : prodOps what (a + 1) = prodOps what a ++ [op] := by simp only [prodOps, hw]
      obtain ⟨m, hm1, hm2⟩ := prodOps_prefix (what := what) (n := a + 1) (pre := pre) (by rw [e, h4]; exact List.prefix_append _ _)
      have hrm := h.prodOps_run (n := m) (by omega)
      rw [hm2, h5, Res.ok.injEq] at hrm
      subst hrm
      have hseg := segmentData_spec (nm.appendVersion v) buf fr
      refine ⟨m, hm1, hlt, (hseg.fresh d h8).2, ?_⟩
      obtain ⟨j, hj⟩ := List.mem_iff_getElem?.mp h8
      have hn := hseg.name j d hj
      unfold Name.appendVersion at hn
      cases h7 with
      | hello c hc => exact ⟨c, pc.syncPrefix ++ [HELLO], _, _, hc, hn.trans (by simp only [List.append_assoc, List.cons_append, List.nil_append]; rfl)⟩
      | asked n key bf iblt diff content c _ hf _ _ _ hcol hc => exact ⟨c, key, _, _, hc, hn.trans (by simp only [List.append_assoc, List.cons_append, List.nil_append]; rfl)⟩
      | parked p x key bf iblt diff sub c _ hf hp _ _ hsub hc => exact ⟨c, key, _, _, hc, hn.trans (by simp only [List.append_assoc, List.cons_append, List.nil_append]; rfl)⟩

/-- The packets received since the last sync Interest are all nacks if the fetch ends in a nack. -/
theorem sync_kind (h : PSRun pc cc P C what len) (hr : Regular pc P what len) {n : Nat} (hn : n ≤ len)
    {buf : Bytes} (hact : (C n).syncFetcher = some true) (hkind : (C n).contentType = .nack)
    (hd : FetchDone (fun d => Out.data d ∈ (P n).log) C what (cc.syncPrefix ++ [SYNC]) .syncSegment n buf)
    {s : Nat} (hs : s < n) {d : Data} (hw : what s = .cons (.syncSegment d))
    (he : askedUnder (cc.syncPrefix ++ [SYNC]) (C s).log = askedUnder (cc.syncPrefix ++ [SYNC]) (C n).log) : d.contentType = .nack := by
  obtain ⟨name, segs, h3, h4, h5, k, k2, d', hdm, k3, k4, k5⟩ := h.sync_last hn hact hd
  rcases h.delivered hr hn h4 with h6 | ⟨nm, _, _, hall⟩
  · exact (h6 d (h5 s hs d hw he)).1
  · rw [(hall d' hdm).1, hkind] at k5
    cases k5

theorem nowC (h : PSRun pc cc P C what len) {m n : Nat} (hmn : m ≤ n) (hn : n ≤ len) : (C m).now ≤ (C n).now := by
  induction n, hmn using Nat.le_induction with
  | base => exact le_refl _
  | succ n hmn ih =>
    refine le_trans (ih (by omega)) ?_
    cases h.step n (by omega) with
    | prod op _ _ hs => rw [hs]
    | cons op _ hs _ _ _ => exact (Cons.step_time hs).1

/-- An event that is not the passing of time does not move the clock of the consumer. -/
theorem stillC (h : PSRun pc cc P C what len) {n : Nat} (hn : n < len) (ht : ∀ t, what n ≠ .cons (.tick t)) :
    (C (n + 1)).now = (C n).now := by
  cases h.step n hn with
  | prod op _ _ hs => rw [hs]
  | cons op hw hs _ _ _ => exact (Cons.step_time hs).2 (fun t e => ht t (by rw [hw, e]))

/-- Data sent late enough is from a state after event `n0`. -/
theorem recent (h : PSRun pc cc P C what len) {a n0 : Nat} (ha : a < len)
    {X δ : Nat} (hX : (P n0).now ≤ X) (hn0 : n0 ≤ len) (hδ : (C a).now ≤ (P a).now + δ)
    (hlate : X + max pc.freshness pc.helloFreshness + pc.lag + δ < (C a).now) {r : Nat}
    (hage : (P (a + 1)).now ≤ (P r).now + max pc.freshness pc.helloFreshness + pc.lag) : n0 ≤ r := by
  by_contra hlt
  have h1 := h.nowP (m := r) (n := n0) (by omega) hn0
  have h2 := h.nowP (m := a) (n := a + 1) (by omega) ha
  omega

/-- A hello exchange brings the consumer up to date. -/
theorem helloExchange (h : PSRun pc cc P C what len) (hm : Matching pc cc) (hr : Regular pc P what len) (hc : Careful pc P C what len)
    (hrem : ∀ k < len, ∀ p, what k ≠ .prod (.removeUserNode p)) {n0 X δ Δ : Nat} (hn0 : n0 ≤ len) (hX : (P n0).now ≤ X)
    (hclock : ∀ n < len, ∀ i, what n = .prod (.recvInterest i) → (C n).now ≤ (P n).now + δ) {k : Nat}
    (hlate : X + max pc.freshness pc.helloFreshness + pc.lag + δ < (C k).now)
    (hx : Exchanged Δ P C what len (cc.syncPrefix ++ [HELLO]) (fun s => s.helloFetcher = some true)
      .helloSegment (fun op => ∃ buf a1 a2, op = .helloComplete buf a1 a2) k) :
    ∃ n, k < n ∧ n ≤ len ∧ (C n).now ≤ (C k).now + Δ ∧ UpToDate (C n) (P n0) := by
  obtain ⟨a, i, hka, hal, hw, hlast, _, _, _, hgo⟩ := hx
  have hname : i.name = pc.syncPrefix ++ [HELLO] := by
    obtain ⟨hp, lt, hin⟩ := mem_askedUnder.mp (List.mem_of_getLast? hlast)
    rw [← hm.syncPrefix]
    rcases Cons.moment_asks (h.momentC (n := a) (by omega)) _ _ hin with h1 | h1
    · exact h1
    · exfalso
      obtain ⟨r1, e1⟩ := hp
      obtain ⟨r2, e2⟩ := h1
      have := e1.trans e2.symm
      simp only [List.append_assoc, List.singleton_append, List.append_cancel_left_eq, List.cons.injEq] at this
      exact absurd this.1 (by decide)
  obtain ⟨d, hd⟩ : ∃ d, Out.data d ∈ (P (a + 1)).log.drop (P a).log.length := by
    cases h.step a hal with
    | cons op hw' _ _ _ _ => rw [hw] at hw'; cases hw'
    | prod op hw' hs _ =>
      rw [hw] at hw'
      cases hw'
      obtain ⟨d, hd⟩ := Part.hello_answered hname hs
      exact ⟨d, by rw [hd, List.drop_left]; simp⟩
  obtain ⟨s, b, op, h1, h2, h3, h4, h5, ⟨buf, a1, a2, rfl⟩, h6, h7, h8⟩ := hgo d hd
  have hka' := h.nowC (m := k) (n := a) (by omega) (by omega)
  obtain ⟨_, _, _, c, _, _, _, _, _, hevery, _, hup⟩ := c71_hello pc cc P C what len h hm hr hc b h3 buf a1 a2 h5 h6
  have hasked : askedUnder (cc.syncPrefix ++ [HELLO]) (C s).log = askedUnder (cc.syncPrefix ++ [HELLO]) (C b).log := by
    have q1 := h.asCRun.asked (m := k + 1) (n := s) (by omega) (by omega) (cc.syncPrefix ++ [HELLO])
    have q2 := h.asCRun.asked (m := s) (n := b) (by omega) (by omega) (cc.syncPrefix ++ [HELLO])
    rw [← h7] at q1
    exact q2.eq_of_length_le q1.length_le
  obtain ⟨v, g, hdn⟩ := hevery s h2 d h4 hasked
  refine ⟨b + 1, by omega, h3, by rw [h.stillC h3 (by rw [h5]; simp)]; exact h8, ?_⟩
  rcases h.madeAt hal hw hd with ⟨_, _, hp⟩ | ⟨r, hr1, hage, _, c', nm, v', g', hc', hdn'⟩
  · exfalso
    rw [hdn] at hp
    exact Cons.not_sync_hello pc.syncPrefix [c, v, g] (hp.trans ⟨[], by simp⟩)
  · rw [hdn] at hdn'
    have e : pc.syncPrefix ++ [HELLO] = nm ∧ [c, v, g] = [c', v', g'] := List.append_inj' (by simpa using hdn') rfl
    simp only [List.cons.injEq] at e
    obtain ⟨_, rfl, _⟩ := e
    exact h.upToDate_past hrem (h.recent hal hX hn0 (hclock a hal i hw) (by omega) hage) (by omega)
      (hup r (by omega) hc')

/-- So does a sync exchange, or the hello exchange after a nack. -/
theorem syncExchange (h : PSRun pc cc P C what len) (hm : Matching pc cc) (hr : Regular pc P what len) (hc : Careful pc P C what len)
    (hrem : ∀ k < len, ∀ p, what k ≠ .prod (.removeUserNode p)) {n0 X δ Δ : Nat} (hn0 : n0 ≤ len) (hX : (P n0).now ≤ X)
    (hclock : ∀ n < len, ∀ i, what n = .prod (.recvInterest i) → (C n).now ≤ (P n).now + δ)
    (hp : PSPrompt cc Δ P C what n0 len) {k : Nat} (hk0 : n0 ≤ k) (hkl : k < len)
    (hlate : X + max pc.freshness pc.helloFreshness + pc.lag + δ < (C k).now) (hlong : (C k).now + 2 * Δ < (C len).now)
    (hnew : askedUnder (cc.syncPrefix ++ [SYNC]) (C k).log ≠ askedUnder (cc.syncPrefix ++ [SYNC]) (C (k + 1)).log) :
    ∃ n, k < n ∧ n ≤ len ∧ (C n).now ≤ (C k).now + 2 * Δ ∧ UpToDate (C n) (P n0) := by
  obtain ⟨a, i, hka, hal, hw, hlast, hact, hsame, hsoon, hgo⟩ := hp.sync k hk0 hkl hnew (by omega)
  have hka' := h.nowC (m := k) (n := a) (by omega) (by omega)
  by_cases hany : ∃ d, Out.data d ∈ (P (a + 1)).log.drop (P a).log.length
  swap
  · have hst : (P a).pub.replyFromStore i.name = none := by
      by_contra hst
      obtain ⟨d, hd⟩ := Option.ne_none_iff_exists'.mp hst
      cases h.step a hal with
      | cons op hw' _ _ _ _ => rw [hw] at hw'; cases hw'
      | prod op hw' hs _ =>
        rw [hw] at hw'
        cases hw'
        have hpre := (mem_askedUnder.mp (List.mem_of_getLast? hlast)).1
        rw [hm.syncPrefix] at hpre
        rw [step_sync hpre] at hs
        unfold Part.onSyncInterest at hs
        rw [hd] at hs
        simp only [Res.ok.injEq] at hs
        refine hany ⟨d, ?_⟩
        rw [← hs]
        simp [Part.emit]
    refine ⟨a, hka, by omega, by omega, h.upToDate_past hrem (by omega) (n := a) (by omega) ?_⟩
    by_contra hnot
    obtain ⟨d, c, hlog, _⟩ := c71_asking pc cc P C what len h hm hr hc a hal hact i hlast hw hst hnot
    exact hany ⟨d, by rw [hlog, List.drop_left]; simp⟩
  · obtain ⟨d, hd⟩ := hany
    obtain ⟨s, b, op, h1, h2, h3, h4, h5, ⟨buf, acts, rfl⟩, h6, h7, h8⟩ := hgo d hd
    have hasked : askedUnder (cc.syncPrefix ++ [SYNC]) (C s).log = askedUnder (cc.syncPrefix ++ [SYNC]) (C b).log := by
      have q1 := h.asCRun.asked (m := k + 1) (n := s) (by omega) (by omega) (cc.syncPrefix ++ [SYNC])
      have q2 := h.asCRun.asked (m := s) (n := b) (by omega) (by omega) (cc.syncPrefix ++ [SYNC])
      rw [← h7] at q1
      exact q2.eq_of_length_le q1.length_le
    rcases h.madeAt hal hw hd with ⟨hn, hfin, _⟩ | ⟨r, hr1, hage, hblob, c', nm, v', g', hc', hdn'⟩
    · have hs1 := h.nowC (m := k) (n := s) (by omega) (by omega)
      have hs2 := h.nowC (m := s) (n := b) (by omega) (by omega)
      have hacts := h.asCRun.fetching (m := s) (n := b) (by omega) (by omega) hasked h6 s (le_refl _) (by omega)
      have hask : askedUnder (cc.syncPrefix ++ [HELLO]) (C s).log ≠ askedUnder (cc.syncPrefix ++ [HELLO]) (C (s + 1)).log := by
        cases h.step s (by omega) with
        | prod op hw' _ _ => rw [h4] at hw'; cases hw'
        | cons op hw' hs _ _ _ =>
          rw [h4] at hw'
          cases hw'
          simp only [Cons.step, if_pos hacts, if_pos hfin, hn, if_true, Res.ok.injEq] at hs
          rw [← hs]
          simp only [Cons.sendHelloInterest, askedUnder_append]
          rw [askedUnder_hit (by unfold Cons.helloPrefix; exact List.prefix_refl _)]
          simp
      obtain ⟨n, n1, n2, n3, n4⟩ := h.helloExchange hm hr hc hrem hn0 hX hclock (k := s) (by omega)
        (hp.hello s (by omega) (by omega) hask (by omega))
      exact ⟨n, by omega, n2, by omega, n4⟩
    · have hkind : (C b).contentType ≠ .nack := by
        intro hk
        cases h.step b h3 with
        | prod op hw' _ _ => rw [h5] at hw'; cases hw'
        | cons op hw' hs _ hsync _ =>
          rw [h5] at hw'
          cases hw'
          have := (h.upto (n := b) (by omega)).sync_kind (h.regular_upto hr (n := b) (by omega)) (le_refl _) h6 hk (hsync buf acts rfl) h2 h4 hasked
          rw [hblob] at this
          cases this
      obtain ⟨_, _, _, name, c, _, _, _, _, _, _, hevery, _, hup⟩ := c71_reply pc cc P C what len h hm hr hc b h3 buf acts h5 h6 hkind
      obtain ⟨v, g, hdn⟩ := hevery s h2 d h4 hasked
      refine ⟨b + 1, by omega, h3, by rw [h.stillC h3 (by rw [h5]; simp)]; omega, ?_⟩
      rw [hdn] at hdn'
      have e : name = nm ∧ [c, v, g] = [c', v', g'] := List.append_inj' hdn' rfl
      simp only [List.cons.injEq] at e
      obtain ⟨_, rfl, _⟩ := e
      exact h.upToDate_past hrem (h.recent hal hX hn0 (hclock a hal i hw) (by omega) hage) (by omega)
        (hup r (by omega) hc')

/-- The consumer asks late enough and soon enough. -/
theorem asksIn (h : PSRun pc cc P C what len) (hj : ∀ n, cc.jitter n ≤ 500)
    (hk : ∀ n < len, ∀ op, what n = .cons op → KeepsGoing [op]) {L : Nat} (hL : FetchesEnd cc L C len)
    {b n0 T : Nat} (hb : what b = .cons (.call .sendHello)) (hbn : b < n0) (hn0 : n0 ≤ len) (hT : (C n0).now ≤ T)
    (hlong : T + 2 * L + 500 + cc.lag < (C len).now) :
    ∃ k, n0 ≤ k ∧ k < len ∧ T < (C k).now ∧ (C k).now ≤ T + 2 * L + 500 + cc.lag ∧ ∃ name, Asks1 C k name := by
  classical
  have hcr := h.asCRun
  have hk' : ∀ n < len, KeepsGoing [consOp what n] := by
    intro n hn
    cases h.step n hn with
    | prod op hw _ _ => exact ⟨fun b a1 a2 hm => by simp [consOp, hw] at hm, fun o ho => by
        simp only [consOp, hw, List.mem_singleton] at ho; subst ho; simp [callsIn]⟩
    | cons op hw _ _ _ _ => simp only [consOp, hw]; exact hk n hn op hw
  have hex : ∃ m, T < (C m).now := ⟨len, by omega⟩
  have hs := Nat.find_spec hex
  have hmin := fun x => Nat.find_min (m := x) hex
  generalize Nat.find hex = m at hs hmin
  have hmle : m ≤ len := by
    by_contra hc
    exact hmin len (by omega) (by omega)
  have hm0 : n0 < m := by
    by_contra hc
    have := h.nowC (m := m) (n := n0) (by omega) hn0
    omega
  obtain ⟨y, rfl⟩ : ∃ y, m = y + 1 := ⟨m - 1, by omega⟩
  have hy : (C y).now ≤ T := by have := hmin y (by omega); omega
  have hex2 : ∃ m, T + 2 * L + 500 + cc.lag < (C m).now := ⟨len, hlong⟩
  have hs2 := Nat.find_spec hex2
  have hmin2 := fun x => Nat.find_min (m := x) hex2
  generalize Nat.find hex2 = z at hs2 hmin2
  have hzle : z ≤ len := by
    by_contra hc
    exact hmin2 len (by omega) hlong
  have hyz : y < z := by
    by_contra hc
    have := h.nowC (m := z) (n := y) (by omega) (by omega)
    omega
  obtain ⟨k, name, k1, k2, k3⟩ := c82_pace cc C (consOp what) len hcr hj hk' L hL b (by simp only [consOp, hb]) y z (by omega)
    (by omega) hzle (by omega)
  have hk2 : (C k).now ≤ T + 2 * L + 500 + cc.lag := by have := hmin2 k k2; omega
  rcases Nat.lt_or_ge y k with hlt | hge
  · have := h.nowC (m := y + 1) (n := k) (by omega) (by omega)
    exact ⟨k, by omega, by omega, by omega, hk2, name, k3⟩
  · exfalso
    obtain rfl : k = y := by omega
    have hst := h.stillC (n := k) (by omega)
    by_cases ht : ∃ t, what k = .cons (.tick t)
    · obtain ⟨t, ht⟩ := ht
      obtain ⟨lt, k4⟩ := k3
      cases h.step k (by omega) with
      | prod op hw _ _ => rw [ht] at hw; cases hw
      | cons op hw hs _ _ _ =>
        rw [ht] at hw
        cases hw
        simp only [Cons.step, Res.ok.injEq] at hs
        rw [← hs] at k4
        split at k4 <;> simp at k4
    · have := hst (fun t e => ht ⟨t, e⟩)
      omega

/-- An Interest is a hello or a sync Interest. -/
theorem asks_new (h : PSRun pc cc P C what len) {k : Nat} (hk : k < len) {name : Name} (ha : Asks1 C k name) :
    askedUnder (cc.syncPrefix ++ [HELLO]) (C k).log ≠ askedUnder (cc.syncPrefix ++ [HELLO]) (C (k + 1)).log ∨
    askedUnder (cc.syncPrefix ++ [SYNC]) (C k).log ≠ askedUnder (cc.syncPrefix ++ [SYNC]) (C (k + 1)).log := by
  obtain ⟨lt, hin⟩ := ha
  obtain ⟨ext, e⟩ := (Cons.step_micros (h.asCRun.step k hk)).log
  rw [e, List.drop_left] at hin
  have hne : ∀ pre : Name, pre <+: name → askedUnder pre (C k).log ≠ askedUnder pre (C (k + 1)).log := by
    intro pre hpre heq
    rw [e, askedUnder_append] at heq
    have : askedUnder pre ext = [] := by simpa using heq.symm
    have hmem : name ∈ askedUnder pre ext := mem_askedUnder.mpr ⟨hpre, lt, hin⟩
    rw [this] at hmem
    cases hmem
  rcases Cons.moment_asks (h.momentC (n := k + 1) (by omega)) name lt (by rw [e]; exact List.mem_append_right _ hin) with rfl | h1
  · exact .inl (hne _ (List.prefix_refl _))
  · exact .inr (hne _ h1)

end Spec.PSRun
end PSync
