import Verif.Props.PubSub
import Verif.Props.PartialSync
/-!
Property C71: a subscriber that waits has everything.
-/
namespace PSync
open Spec

theorem noCollisionsIn_mono {e : Nat} {K K' : Name → Nat → Prop} (h : NoCollisionsIn e K) (hs : ∀ p q, K' p q → K p q) :
    NoCollisionsIn e K' := by
  have hn : ∀ n, Near K' n → Near K n := fun n ⟨p, q, h1, h2⟩ => ⟨p, q, hs p q h1, h2⟩
  have hh : ∀ A, HashesOf K' A → HashesOf K A := fun A ⟨h1, h2⟩ =>
    ⟨h1, fun k hk => (h2 k hk).imp fun p hp => hp.imp fun q hq => ⟨hs p q hq.1, hq.2⟩⟩
  exact ⟨fun n n' a b => h.names n n' (hn n a) (hn n' b), fun A B a b => h.checks A B (hh A a) (hh B b),
    fun A B a b => h.few A B (hh A a) (hh B b)⟩

namespace Spec.PSRun

variable {pc : Cfg} {cc : CCfg} {P : Nat → Part} {C : Nat → Cons} {what : Nat → PSEv} {len : Nat}

theorem upto (h : PSRun pc cc P C what len) {n : Nat} (hn : n ≤ len) : PSRun pc cc P C what n :=
  ⟨h.initP, h.initC, fun k hk => h.step k (by omega)⟩

theorem regular_upto (h : PSRun pc cc P C what len) (hr : Regular pc P what len) {n : Nat} (hn : n ≤ len) :
    Regular pc P what n := by
  obtain ⟨h1, h2⟩ := h.later hn (le_refl _)
  have hlen := h1.length_le
  have hget : ∀ (a : Nat) (e : Name × Bytes × Nat), (P n).replies[a]? = some e → (P len).replies[a]? = some e := by
    intro a e he
    obtain ⟨t, ht⟩ := h1
    rw [← ht, List.getElem?_append_left (List.getElem?_eq_some_iff.mp he).1]
    exact he
  refine ⟨fun k hk => hr.names k (by omega), fun e he => hr.buffers e (h1.subset he), fun a ha => hr.version_lt a (by omega),
    fun a b e e' he he' => hr.versions a b e e' (hget a e he) (hget b e' he'), ?_⟩
  exact noCollisionsIn_mono hr.collisions (fun p q hm => h2.subset hm)

theorem careful_upto (hc : Careful pc P C what len) {n : Nat} (hn : n ≤ len) : Careful pc P C what n :=
  ⟨fun k hk => hc.inTime k (by omega), fun k hk op p q cb hw hmem r hle => hc.current k (by omega) op p q cb hw hmem r (by omega)⟩

end Spec.PSRun

/-- C71, waiting: while the sync Interest that the consumer has sent last is parked at the producer, and the
consumer waits for its answer, the consumer is up to date with the producer: for every subscribed prefix it has
the producer's current number (or a higher one). -/
theorem c71_waiting (pc : Cfg) (cc : CCfg) (P : Nat → Part) (C : Nat → Cons) (what : Nat → PSEv) (len : Nat)
    (h : PSRun pc cc P C what len) (hm : Matching pc cc) (hr : Regular pc P what len) (hc : Careful pc P C what len)
    (n : Nat) (hn : n ≤ len) (hact : (C n).syncFetcher = some true) (name : Name)
    (hname : (askedUnder (cc.syncPrefix ++ [SYNC]) (C n).log).getLast? = some name)
    (hpark : name ∈ (P n).pending.keys) : UpToDate (C n) (P n) := by
  obtain ⟨name', bf, b, h1, h2, h3, h4, h5, _⟩ := (h.held hm hr hc hn).2 hact
  rw [hname] at h1
  cases h1
  rw [NMap.mem_keys, Option.isSome_iff_exists] at hpark
  obtain ⟨e, hk⟩ := hpark
  obtain ⟨e1, e2⟩ := Part.syncFields_unique ((Part.reach_parked (h.reachP hn)).fields name e hk) h2
  have hcmp := h.comparable hr
  intro p x hp hx
  by_cases hx0 : x = 0
  · obtain ⟨_, _, hinv⟩ := (h.momentC hn).inv
    obtain ⟨y, hy⟩ := Option.isSome_iff_exists.mp (hinv.sub p hp)
    exact ⟨y, hy, by omega⟩
  by_cases hlive : IsLive b.getSeqNo (Name.appendNumber p x)
  · obtain ⟨p', x', k1, k2, k3⟩ := hlive
    obtain ⟨rfl, rfl⟩ := appendNumber_inj' ((hcmp.inv _ ⟨n, hn, rfl⟩).lt p x hx) ((hcmp.inv b h3).lt p' x' k1) k3
    exact h5 p x hp k1
  · have := h.idle hm hr hn name e hk b h3 e2.symm p x hx hx0 hlive (by rw [e1]; exact h4 p hp)
    simp at this

/-- C71, asking: if the consumer's last sync Interest arrives while the consumer is not up to date (and the store does
not answer it), the producer does not keep it waiting.  It sends one packet at once: the first segment of a reply
named after its current IBF, or, if the difference does not decode, a nack. -/
theorem c71_asking (pc : Cfg) (cc : CCfg) (P : Nat → Part) (C : Nat → Cons) (what : Nat → PSEv) (len : Nat)
    (h : PSRun pc cc P C what len) (hm : Matching pc cc) (hr : Regular pc P what len) (hc : Careful pc P C what len)
    (n : Nat) (hn : n < len) (hact : (C n).syncFetcher = some true) (i : Interest)
    (hname : (askedUnder (cc.syncPrefix ++ [SYNC]) (C n).log).getLast? = some i.name)
    (hw : what n = .prod (.recvInterest i)) (hst : (P n).pub.replyFromStore i.name = none) (hnot : ¬ UpToDate (C n) (P n)) :
    ∃ d c, (P (n + 1)).log = (P n).log ++ [Out.data d] ∧ (P n).base.iblt.toComponent pc.ibltCodec = .ok c ∧
      ((d.contentType = .blob ∧ ∃ v, d.name = i.name ++ [c, v, ⟨50, nniBytes 0⟩]) ∨
       (d.contentType = .nack ∧ d.name = i.name ++ [c, ⟨50, nniBytes 0⟩])) := by
  cases h.step n hn with
  | cons op hw' _ _ _ _ => rw [hw] at hw'; cases hw'
  | prod op hw' hs hC =>
    rw [hw] at hw'
    cases hw'
    obtain ⟨name', bf, b, h1, h2, h3, h4, h5, cb, h6, h7⟩ := (h.held hm hr hc (n := n) (by omega)).2 hact
    rw [hname] at h1
    cases h1
    have hp : (pc.syncPrefix ++ [SYNC]) <+: i.name := by
      obtain ⟨c1, c2, c3, c4, _, _, e, _⟩ := h2
      rw [e]; exact ⟨[c1, c2, c3, c4], by simp⟩
    rw [step_sync hp, Part.onSyncInterest_wf hst h2 (.inl rfl)] at hs
    obtain ⟨diff, hd, hcase⟩ := Part.onSyncParsed_ok hs
    rcases hcase with ⟨_, d, k1, k2⟩ | ⟨hdec, content, _, ⟨_, c, r, k1, k2, k3⟩ | ⟨_, hcont, k3⟩⟩
    · unfold nackData at k1
      simp only [Res.bind_eq_ok, Res.ok.injEq] at k1
      obtain ⟨c, k3, rfl⟩ := k1
      refine ⟨_, c, by rw [k2]; rfl, k3, .inr ⟨rfl, ?_⟩⟩
      simp [Name.appendSegment, TlvType.segment]
    · obtain ⟨v, segs, hseg, hds⟩ := publish_sent k2
      have hty : cb.type ≠ 50 := by
        unfold Table.toComponent at h6
        simp only [Res.bind_eq_ok, Res.ok.injEq] at h6
        obtain ⟨_, _, rfl⟩ := h6
        simp [TlvType.generic]
      have hne : segs ≠ [] := List.ne_nil_of_length_pos hseg.nonempty
      obtain ⟨d, ds, rfl⟩ := List.exists_cons_of_ne_nil hne
      have hsent : r.2 = [d] := by
        rw [hds]
        simp [asked, h7, hty]
      refine ⟨d, c, by rw [k3, hsent]; rfl, k1, .inl ⟨(hseg.fresh d (by simp)).2, ?_⟩⟩
      rw [hseg.name 0 d rfl]
      unfold Name.appendVersion
      exact ⟨⟨TlvType.version, nniBytes v⟩, by simp only [List.append_assoc, List.cons_append, List.nil_append]⟩
    · exfalso
      refine hnot ?_
      have := c71_waiting pc cc P C what len h hm hr hc (n + 1) hn (by rw [hC]; exact hact) i.name (by rw [hC]; exact hname)
        (by
          rw [k3, NMap.mem_keys]
          simp [NMap.find_set])
      rw [hC] at this
      intro p x hp hx
      exact this p x hp (by rw [k3]; exact hx)

/-- C71, catching up with a sync reply: when the consumer has processed a sync reply that is not a nack, it has received
a packet `d` the producer has sent, all packets received since its last Interest have the same IBF in their names, the
producer has had that IBF, and the consumer is up to date with every state of the producer with that IBF. -/
theorem c71_reply (pc : Cfg) (cc : CCfg) (P : Nat → Part) (C : Nat → Cons) (what : Nat → PSEv) (len : Nat)
    (h : PSRun pc cc P C what len) (hm : Matching pc cc) (hr : Regular pc P what len) (hc : Careful pc P C what len)
    (n : Nat) (hn : n < len) (buf : Bytes) (acts : List Cons.Call) (hw : what n = .cons (.syncComplete buf acts))
    (hact : (C n).syncFetcher = some true) (hkind : (C n).contentType ≠ .nack) :
    ∃ k < n, ∃ d name c v g, what k = .cons (.syncSegment d) ∧ Out.data d ∈ (P n).log ∧
      (askedUnder (cc.syncPrefix ++ [SYNC]) (C n).log).getLast? = some name ∧ d.name = name ++ [c, v, g] ∧
      (∀ s < n, ∀ d, what s = .cons (.syncSegment d) → askedUnder (cc.syncPrefix ++ [SYNC]) (C s).log =
        askedUnder (cc.syncPrefix ++ [SYNC]) (C n).log → ∃ v g, d.name = name ++ [c, v, g]) ∧
      (∃ r ≤ n, (P r).base.iblt.toComponent pc.ibltCodec = .ok c) ∧
      ∀ r ≤ len, (P r).base.iblt.toComponent pc.ibltCodec = .ok c → UpToDate (C (n + 1)) (P r) := by
  have h' := h.upto (n := n) (by omega)
  have hr' := h.regular_upto hr (n := n) (by omega)
  have hc' := PSRun.careful_upto hc (n := n) (by omega)
  obtain ⟨name, bf, b0, h1, h2, h3, h4, h5, _⟩ := (h'.held hm hr' hc' (le_refl _)).2 hact
  cases h.step n hn with
  | prod op hw' _ _ => rw [hw] at hw'; cases hw'
  | cons op hw' hs _ hsync _ =>
    rw [hw] at hw'
    cases hw'
    obtain ⟨b, c, content, ⟨r, hle, hb⟩, hcomp, hnm, _, _, _, _, hevery, k, hk, d, hd, hlog, v, g, hdn⟩ :=
      h'.sync_delivered hm hr' (le_refl _) hact hkind (hsync buf acts rfl) h1 h2
    refine ⟨k, hk, d, name, c, v, g, hd, hlog, h1, hdn, hevery, ⟨r, hle, hb ▸ hcomp⟩, fun r' hle' hcomp' => ?_⟩
    refine c45_up_to_date_partial pc cc P C what len h hm hr hc (n + 1) hn r' hle' ⟨c, hcomp', ?_⟩
    simp only [Cons.step, hact, if_true, hkind, if_false] at hs
    obtain ⟨_, _, _, _, hwent⟩ := Cons.onSyncData_went hs
    rw [hwent.iblt]
    simp [hnm]

/-- C71, catching up with a hello reply. -/
theorem c71_hello (pc : Cfg) (cc : CCfg) (P : Nat → Part) (C : Nat → Cons) (what : Nat → PSEv) (len : Nat)
    (h : PSRun pc cc P C what len) (hm : Matching pc cc) (hr : Regular pc P what len) (hc : Careful pc P C what len)
    (n : Nat) (hn : n < len) (buf : Bytes) (a1 a2 : List Cons.Call) (hw : what n = .cons (.helloComplete buf a1 a2))
    (hact : (C n).helloFetcher = some true) :
    ∃ k < n, ∃ d c v g, what k = .cons (.helloSegment d) ∧ Out.data d ∈ (P n).log ∧
      d.name = pc.syncPrefix ++ [HELLO, c, v, g] ∧
      (∀ s < n, ∀ d, what s = .cons (.helloSegment d) → askedUnder (cc.syncPrefix ++ [HELLO]) (C s).log =
        askedUnder (cc.syncPrefix ++ [HELLO]) (C n).log → ∃ v g, d.name = pc.syncPrefix ++ [HELLO, c, v, g]) ∧
      (∃ r ≤ n, (P r).base.iblt.toComponent pc.ibltCodec = .ok c) ∧
      ∀ r ≤ len, (P r).base.iblt.toComponent pc.ibltCodec = .ok c → UpToDate (C (n + 1)) (P r) := by
  have h' := h.upto (n := n) (by omega)
  have hr' := h.regular_upto hr (n := n) (by omega)
  cases h.step n hn with
  | prod op hw' _ _ => rw [hw] at hw'; cases hw'
  | cons op hw' hs _ _ hhello =>
    rw [hw] at hw'
    cases hw'
    obtain ⟨b, c, ⟨r, hle, hb⟩, hcomp, hnm, _, _, hevery, k, hk, d, hd, hlog, v, g, hdn⟩ :=
      h'.hello_delivered hm hr' (le_refl _) hact (hhello buf a1 a2 rfl)
    refine ⟨k, hk, d, c, v, g, hd, hlog, hdn, hevery, ⟨r, hle, hb ▸ hcomp⟩, fun r' hle' hcomp' => ?_⟩
    refine c45_up_to_date_partial pc cc P C what len h hm hr hc (n + 1) hn r' hle' ⟨c, hcomp', ?_⟩
    simp only [Cons.step, hact, if_true] at hs
    obtain ⟨_, _, _, _, hwent⟩ := Cons.onHelloData_went hs
    rw [hwent.iblt]
    simp [hnm]

/-! Concrete runs. -/

set_option maxRecDepth 100000 in
/-- Non-vacuity for `c71_waiting`, in the run of C45: at state 9 the consumer's Interest with the IBF of the hello reply is
parked and it has /a's number 0; at the end it is parked again, with the IBF of state 10, and it has /a's number 1 (the
producer also has /b, which it did not subscribe to, at 1). -/
theorem c71_waiting_sample : ∃ (P : Nat → Part) (C : Nat → Cons) (what : Nat → PSEv),
    PSRun sampleCfg sampleCCfg P C what 14 ∧ Matching sampleCfg sampleCCfg ∧ Regular sampleCfg P what 14 ∧
      Careful sampleCfg P C what 14 ∧ ∀ n ∈ [9, 14], (C n).syncFetcher = some true ∧
        (∃ name, (askedUnder (sampleCCfg.syncPrefix ++ [SYNC]) (C n).log).getLast? = some name ∧ name ∈ (P n).pending.keys) ∧
        (C n).isSubscribed pA = true ∧ (P n).base.getSeqNo pA = some (if n = 9 then 0 else 1) := by
  have hx : ((psrun sampleCfg sampleCCfg steadyScript).map fun r =>
      carefulB r 14 && regularB r 14 [(pA, 1), (pB, 1)] && [9, 14].all (fun n =>
        decide ((psat r n).2.syncFetcher = some true) &&
        (match (askedUnder (sampleCCfg.syncPrefix ++ [SYNC]) (psat r n).2.log).getLast? with
          | some name => decide (name ∈ (psat r n).1.pending.keys)
          | none => false) &&
        (psat r n).2.isSubscribed pA && decide ((psat r n).1.base.getSeqNo pA = some (if n = 9 then 0 else 1)))) = some true := by
    decide +kernel
  obtain ⟨r, hr, hb⟩ := Option.of_map hx
  simp only [Bool.and_eq_true, List.all_eq_true] at hb
  obtain ⟨⟨h1, h2⟩, h3⟩ := hb
  refine ⟨_, _, _, psrun_sound hr, sample_matching, regular_of h2 (by decide) (by decide +kernel), careful_of h1, fun n hn => ?_⟩
  obtain ⟨⟨⟨h4, h5⟩, h6⟩, h7⟩ := h3 n hn
  refine ⟨of_decide_eq_true h4, ?_, h6, of_decide_eq_true h7⟩
  split at h5
  · rename_i name hname
    exact ⟨name, hname, of_decide_eq_true h5⟩
  · cases h5

/-- /a is published after the hello reply and before the consumer's first sync Interest arrives. -/
def behindScript : List Act :=
  [.prod (.addUserNode pA), .cons (.call (.addSubscription pA 0 false)), .cons (.call .sendHello), .ask, .helloPkt,
   .helloDone [] [], .cons (.call .sendSync), .prod (.publishName pA none), .ask, .syncPkt, .syncDone [], .ask]

set_option maxRecDepth 100000 in
/-- Non-vacuity for `c71_asking`, `c71_reply` and `c71_hello`: the Interest arrives at event 8, where the consumer has 0 and
the producer 1 for /a; the reply is processed at event 10, after which the consumer has 1; the hello reply was processed
at event 5. -/
theorem c71_asking_sample : ∃ (P : Nat → Part) (C : Nat → Cons) (what : Nat → PSEv),
    PSRun sampleCfg sampleCCfg P C what 12 ∧ Matching sampleCfg sampleCCfg ∧ Regular sampleCfg P what 12 ∧
      Careful sampleCfg P C what 12 ∧ (C 8).syncFetcher = some true ∧
      (∃ i, (askedUnder (sampleCCfg.syncPrefix ++ [SYNC]) (C 8).log).getLast? = some i.name ∧
        what 8 = .prod (.recvInterest i) ∧ (P 8).pub.replyFromStore i.name = none) ∧
      ¬ UpToDate (C 8) (P 8) ∧ (∃ buf, what 10 = .cons (.syncComplete buf [])) ∧ (C 10).syncFetcher = some true ∧
      (C 10).contentType ≠ .nack ∧ (C 11).getSeqNo pA = some 1 ∧ (∃ buf, what 5 = .cons (.helloComplete buf [] [])) ∧
      (C 5).helloFetcher = some true ∧ (P 12).pending.keys.length = 1 := by
  have hx : ((psrun sampleCfg sampleCCfg behindScript).map fun r =>
      carefulB r 12 && regularB r 12 [(pA, 1)] && decide ((psat r 8).2.syncFetcher = some true) &&
      (match pswhat r 8 with
        | .prod (.recvInterest i) =>
          decide ((askedUnder (sampleCCfg.syncPrefix ++ [SYNC]) (psat r 8).2.log).getLast? = some i.name) &&
          decide ((psat r 8).1.pub.replyFromStore i.name = none)
        | _ => false) &&
      ((psat r 8).2.isSubscribed pA && decide ((psat r 8).1.base.getSeqNo pA = some 1) && decide ((psat r 8).2.getSeqNo pA = some 0)) &&
      (match pswhat r 10 with
        | .cons (.syncComplete _ []) => true
        | _ => false) &&
      decide ((psat r 10).2.syncFetcher = some true) && decide ((psat r 10).2.contentType ≠ .nack) &&
      decide ((psat r 11).2.getSeqNo pA = some 1) &&
      (match pswhat r 5 with
        | .cons (.helloComplete _ [] []) => true
        | _ => false) &&
      decide ((psat r 5).2.helloFetcher = some true) && decide ((psat r 12).1.pending.keys.length = 1)) = some true := by
    decide +kernel
  obtain ⟨r, hr, hb⟩ := Option.of_map hx
  simp only [Bool.and_eq_true, decide_eq_true_eq] at hb
  obtain ⟨⟨⟨⟨⟨⟨⟨⟨⟨⟨⟨h1, h2⟩, h3⟩, h4⟩, ⟨h5, h6⟩, h7⟩, h8⟩, h9⟩, h10⟩, h11⟩, h12⟩, h13⟩, h14⟩ := hb
  refine ⟨_, _, _, psrun_sound hr, sample_matching, regular_of h2 (by decide) (by decide +kernel), careful_of h1, h3, ?_, ?_, ?_, h9,
    h10, h11, ?_, h13, h14⟩
  · split at h4
    · rename_i i hi
      simp only [Bool.and_eq_true, decide_eq_true_eq] at h4
      exact ⟨i, h4.1, hi, h4.2⟩
    · cases h4
  · intro hu
    obtain ⟨y, hy, hle⟩ := hu pA 1 h5 h6
    rw [h7] at hy
    cases hy
    omega
  · split at h8
    · rename_i buf hi
      exact ⟨buf, hi⟩
    · cases h8
  · split at h12
    · rename_i buf hi
      exact ⟨buf, hi⟩
    · cases h12

end PSync
