import Verif.Proofs.PacketSize
import Verif.Proofs.ConsumerName
import Verif.Proofs.Honest
import Verif.Spec.OtherGroup
import Verif.Props.Consumer
/-!
Property C100: the Interests of other groups.
-/
namespace PSync
open Spec

/-! ### What a full-sync node has in its store -/

/-- The name of a reply of a full-sync node. -/
def ReplyName (cfg : Cfg) (n : Name) : Prop :=
  ∃ c2 c1 num t x y, n = cfg.syncPrefix ++ [c2, c1, ⟨TlvType.version, x⟩, ⟨TlvType.segment, y⟩] ∧ c1.toNumber = .ok num ∧
    Table.initialize cfg.ibltCodec cfg.expected c2 = .ok t

/-- The names of the packets of a full-sync node: replies and nacks. -/
def PacketName (cfg : Cfg) (d : Data) : Prop :=
  ReplyName cfg d.name ∨ ∃ c y, c.type = TlvType.generic ∧ d.name = cfg.syncPrefix ++ [c, ⟨TlvType.segment, y⟩]

theorem packet_names {cfg : Cfg} {s : Full} (hs : Full.Reach cfg s) {d : Data} (hd : d ∈ s.pub.store) : ReplyName cfg d.name := by
  have hv : ∃ m x y, d.name = m ++ [⟨TlvType.version, x⟩, ⟨TlvType.segment, y⟩] := by
    obtain ⟨ops, hm⟩ := Full.reach_micro hs
    rcases hm.traced.store d hd with h | ⟨b, m, name, v, buf, fr, _, _, h2⟩
    · simp [SegPub.empty] at h
    · obtain ⟨i, _, hn, _⟩ := segmentData_mem h2
      exact ⟨name, nniBytes v, nniBytes i, by rw [hn]; simp [Name.appendVersion, TlvType.segment]⟩
  suffices h : PacketName cfg d by
    rcases h with h | ⟨c, y, hc, h⟩
    · exact h
    · obtain ⟨m, x, z, hm⟩ := hv
      have := congrArg List.dropLast (hm.symm.trans h)
      rw [show m ++ [(⟨TlvType.version, x⟩ : Component), ⟨TlvType.segment, z⟩] = (m ++ [⟨TlvType.version, x⟩]) ++ [⟨TlvType.segment, z⟩]
          by simp, show cfg.syncPrefix ++ [c, (⟨TlvType.segment, y⟩ : Component)] = (cfg.syncPrefix ++ [c]) ++ [⟨TlvType.segment, y⟩]
          by simp, List.dropLast_concat, List.dropLast_concat] at this
      obtain ⟨_, h2⟩ := List.append_inj' this rfl
      simp only [List.cons.injEq, and_true] at h2
      subst h2
      cases hc
  obtain ⟨s0, ops, h0, h⟩ := hs
  have hL : Full.Laws cfg (fun n => cfg.syncPrefix <+: n ∧ Full.Parses cfg n) (PacketName cfg) (fun _ _ => True) := by
    refine ⟨?_, ?_, fun _ _ _ _ => trivial⟩
    · rintro n ⟨⟨r, rfl⟩, c2, c1, num, t, h1, h2, h3, h4, h5⟩ v buf fr d hd
      rw [List.drop_left] at h1
      obtain ⟨a, b, rfl⟩ := List.length_eq_two.1 h1
      rw [getFromEnd_two, Res.ok.injEq] at h2
      rw [getFromEnd_last, Res.ok.injEq] at h3
      subst h2 h3
      obtain ⟨i, _, hn, _⟩ := segmentData_mem hd
      refine Or.inl ⟨a, b, num, t, nniBytes v, nniBytes i, ?_, h4, h5⟩
      rw [hn]
      simp [Name.appendVersion, TlvType.segment]
    · intro b d _ h
      unfold nackData at h
      simp only [Res.bind_eq_ok, Res.ok.injEq] at h
      obtain ⟨c, h1, rfl⟩ := h
      refine Or.inr ⟨c, nniBytes 0, ?_, by simp [Name.appendSegment]⟩
      unfold Table.toComponent at h1
      simp only [Res.bind_eq_ok, Res.ok.injEq] at h1
      obtain ⟨_, _, rfl⟩ := h1
      rfl
  exact (Full.run_put hL ops (Full.init_lists h0).1 (Full.sendSyncInterest_put hL (Full.fresh_put _ _ _) h0)
    (fun i _ h1 h2 => ⟨List.isPrefixOf_iff_prefix.1 h1, h2⟩) h).store d hd

/-- A name is not answered from the store if it is the beginning of no packet name. -/
theorem not_in_store {cfg : Cfg} {s : Full} (hs : Full.Reach cfg s) {r : Name}
    (h1 : ∀ c2 c1 num t x y, c1.toNumber = .ok num → Table.initialize cfg.ibltCodec cfg.expected c2 = .ok t →
      ¬ r <+: [c2, c1, ⟨TlvType.version, x⟩, ⟨TlvType.segment, y⟩]) : s.pub.replyFromStore (cfg.syncPrefix ++ r) = none := by
  unfold SegPub.replyFromStore
  rw [storeFind_none]
  intro d hd
  rw [Bool.eq_false_iff]
  intro hp
  rw [List.isPrefixOf_iff_prefix] at hp
  obtain ⟨c2, c1, num, t, x, y, h3, h4, h5⟩ := packet_names hs hd
  rw [h3, List.prefix_append_right_inj] at hp
  exact h1 c2 c1 num t x y h4 h5 hp

/-- An Interest that is not answered from the store is ignored, unless it has two or four components after the sync prefix. -/
theorem ignores_of {cfg : Cfg} {s : Full} {r : Name} (h : s.pub.replyFromStore (cfg.syncPrefix ++ r) = none) (h4 : r.length ≠ 4)
    (h2 : r.length ≠ 2) : Ignores cfg s (cfg.syncPrefix ++ r) := by
  intro lt nonce
  simp only [Full.step]
  rw [if_pos (List.isPrefixOf_iff_prefix.2 (List.prefix_append _ _))]
  unfold Full.onSyncInterest
  simp only [h, List.drop_left]
  rw [if_neg h4, if_pos h2]

theorem nacks_of {cfg : Cfg} (hwf : cfg.WF) {s : Full} {r : Name} (h : s.pub.replyFromStore (cfg.syncPrefix ++ r) = none)
    (h4 : r.length = 4) : NacksAside cfg s (cfg.syncPrefix ++ r) := by
  obtain ⟨y, h1, _⟩ := hwf.iblt_lossless s.base.iblt.encode
  have hn : ∃ d, nackData cfg s.base cfg.syncPrefix = .ok d ∧ d.contentType = .nack ∧ d.name.length = cfg.syncPrefix.length + 2 := by
    unfold nackData Table.toComponent
    rw [h1]
    exact ⟨_, rfl, rfl, by simp [Name.appendSegment]⟩
  obtain ⟨d, hd, hc, hl⟩ := hn
  refine ⟨d, hc, ?_, ?_⟩
  · intro hp
    have := hp.length_le
    rw [List.length_append] at this
    omega
  · intro lt nonce
    simp only [Full.step]
    rw [if_pos (List.isPrefixOf_iff_prefix.2 (List.prefix_append _ _))]
    unfold Full.onSyncInterest
    simp only [h, List.drop_left]
    rw [if_pos h4, hd]
    rfl

/-! ### Full-sync groups with a longer prefix -/

/-- The Interests of a full-sync node. -/
theorem asked_name {cfg : Cfg} {o : Full} (ho : Full.Reach cfg o) {n : Name} {t : Nat} (hn : Out.interest n t ∈ o.log) :
    ∃ c k, c.type = TlvType.generic ∧ k.type = TlvType.generic ∧ n = cfg.syncPrefix ++ [c, k] := by
  obtain ⟨bs, _, hnm, _⟩ := Full.reach_log ho hn
  have hnm : Full.syncName cfg bs = .ok n := hnm
  unfold Full.syncName at hnm
  simp only [Res.bind_eq_ok, Res.ok.injEq] at hnm
  obtain ⟨c, h1, rfl⟩ := hnm
  unfold Table.toComponent at h1
  simp only [Res.bind_eq_ok, Res.ok.injEq] at h1
  obtain ⟨w, _, rfl⟩ := h1
  exact ⟨⟨TlvType.generic, w⟩, ⟨TlvType.generic, nniBytes bs.numOwn⟩, rfl, rfl, by simp [Name.appendNumber]⟩

theorem longer_not_stored {cfg : Cfg} {s : Full} (hs : Full.Reach cfg s) {ext : Name} (he : ext ≠ []) {c k : Component}
    (hc : c.type = TlvType.generic) (hk : k.type = TlvType.generic) :
    s.pub.replyFromStore (cfg.syncPrefix ++ (ext ++ [c, k])) = none := by
  apply not_in_store hs
  · intro c2 c1 num t x y _ _ hp
    match ext, he with
    | [e], _ =>
      simp only [List.cons_append, List.nil_append, List.cons_prefix_cons] at hp
      obtain ⟨_, _, rfl, _⟩ := hp
      cases hk
    | [e1, e2], _ =>
      simp only [List.cons_append, List.nil_append, List.cons_prefix_cons] at hp
      obtain ⟨_, _, rfl, _⟩ := hp
      cases hc
    | e1 :: e2 :: e3 :: r, _ =>
      have := hp.length_le
      simp at this

/-- C100, the Interests of the nodes of a full-sync group whose sync prefix is longer by any number of components but two.
(Missing: two components, `c100_full_two`.) -/
theorem c100_full_partial (cfg cfg' : Cfg) (s o : Full) (hs : Full.Reach cfg s) (ext : Name)
    (hx : cfg'.syncPrefix = cfg.syncPrefix ++ ext) (h0 : ext ≠ []) (h2 : ext.length ≠ 2) (ho : Full.Reach cfg' o)
    (n : Name) (t : Nat) (hn : Out.interest n t ∈ o.log) : Ignores cfg s n := by
  obtain ⟨c, k, hc, hk, rfl⟩ := asked_name ho hn
  rw [hx, List.append_assoc]
  have := List.length_pos_iff.2 h0
  exact ignores_of (longer_not_stored hs h0 hc hk) (by simp; omega) (by simp; omega)

/-- C100 is false for two components: the node sends an application nack that answers nothing. -/
theorem c100_full_two (cfg cfg' : Cfg) (hwf : cfg.WF) (s o : Full) (hs : Full.Reach cfg s) (ext : Name)
    (hx : cfg'.syncPrefix = cfg.syncPrefix ++ ext) (h2 : ext.length = 2) (ho : Full.Reach cfg' o)
    (n : Name) (t : Nat) (hn : Out.interest n t ∈ o.log) : NacksAside cfg s n := by
  obtain ⟨c, k, hc, hk, rfl⟩ := asked_name ho hn
  rw [hx, List.append_assoc]
  exact nacks_of hwf (longer_not_stored hs (by rintro rfl; cases h2) hc hk) (by simp [h2])

/-! ### Consumers -/

theorem hello_not_number (num : Nat) : HELLO.toNumber ≠ .ok num := by
  have : HELLO.toNumber = .throw .tlv := by decide
  rw [this]
  simp

theorem hello_not_stored {cfg : Cfg} {s : Full} (hs : Full.Reach cfg s) {ext : Name} (he : ext ≠ []) :
    s.pub.replyFromStore (cfg.syncPrefix ++ (ext ++ [HELLO])) = none := by
  apply not_in_store hs
  · intro c2 c1 num t x y hc1 _ hp
    match ext, he with
    | [e], _ =>
      simp only [List.cons_append, List.nil_append, List.cons_prefix_cons] at hp
      obtain ⟨_, rfl, _⟩ := hp
      exact hello_not_number num hc1
    | [e1, e2], _ =>
      simp only [List.cons_append, List.nil_append, List.cons_prefix_cons] at hp
      obtain ⟨_, _, hh, _⟩ := hp
      cases hh
    | [e1, e2, e3], _ =>
      simp only [List.cons_append, List.nil_append, List.cons_prefix_cons] at hp
      obtain ⟨_, _, _, hh, _⟩ := hp
      cases hh
    | e1 :: e2 :: e3 :: e4 :: r, _ =>
      have := hp.length_le
      simp at this

theorem sync_ignored {cfg : Cfg} {s : Full} (hs : Full.Reach cfg s) (ext : Name) (c1 c2 c3 c4 : Component) :
    Ignores cfg s (cfg.syncPrefix ++ (ext ++ [SYNC, c1, c2, c3, c4])) := by
  refine ignores_of (not_in_store hs ?_) (by simp) (by simp)
  intro a b num t x y _ _ hp
  have := hp.length_le
  simp at this

/-- C100, consumers: sync Interests are ignored; hello Interests are ignored if the sync prefix of the consumer is longer than
that of the node by two, four or more components, or is the same and "hello" is not an IBF.  (Missing: one component,
`c100_hello_one`, and three, `c100_hello_three`.) -/
theorem c100_consumer_partial (cfg : Cfg) (ccfg : CCfg) (s : Full) (o : Cons) (hs : Full.Reach cfg s) (ext : Name)
    (hx : ccfg.syncPrefix = cfg.syncPrefix ++ ext) (ho : Cons.Reach ccfg o) (n : Name) (t : Nat) (hn : Out.interest n t ∈ o.log)
    (h : n = ccfg.syncPrefix ++ [HELLO] → ext.length ≠ 1 ∧ ext.length ≠ 3 ∧
      (ext = [] → ∀ t, Table.initialize cfg.ibltCodec cfg.expected HELLO ≠ .ok t)) : Ignores cfg s n := by
  obtain ⟨bf0, _, hsh⟩ := Cons.reach_asking ho
  rcases hsh.log n t hn with hn | ⟨bf, th, c, _, _, rfl⟩
  · obtain ⟨h1, h3, h0⟩ := h hn
    rw [hn, hx, List.append_assoc]
    refine ignores_of ?_ (by simp; omega) (by simp; omega)
    by_cases he : ext = []
    · subst he
      apply not_in_store hs
      · intro c2 c1 num t x y _ hi hp
        simp only [List.nil_append, List.cons_prefix_cons] at hp
        obtain ⟨rfl, _⟩ := hp
        exact h0 rfl t hi
    · exact hello_not_stored hs he
  · rw [hx, List.append_assoc]
    exact sync_ignored hs ext _ _ _ _

/-- C100 is false for the hello Interest of a consumer whose sync prefix is longer by one component: the handler of the node
throws an exception that it does not catch, whatever the node has done before. -/
theorem c100_hello_one (cfg : Cfg) (ccfg : CCfg) (s : Full) (hs : Full.Reach cfg s) (e : Component)
    (hx : ccfg.syncPrefix = cfg.syncPrefix ++ [e]) (lifetime nonce : Nat) :
    Full.step cfg s (.recvInterest ⟨ccfg.syncPrefix ++ [HELLO], lifetime, nonce⟩) = .throw .tlv := by
  have hn := hello_not_stored hs (ext := [e]) (by simp)
  rw [hx, List.append_assoc]
  simp only [Full.step]
  rw [if_pos (List.isPrefixOf_iff_prefix.2 (List.prefix_append _ _))]
  unfold Full.onSyncInterest
  simp only [List.cons_append, List.nil_append] at hn ⊢
  rw [hn]
  simp only [List.drop_left]
  rw [if_neg (by simp), if_neg (by simp), getFromEnd_two, getFromEnd_last]
  simp only [Res.ok_bind]
  rw [show HELLO.toNumber = .throw .tlv by decide]
  rfl

/-- C100 is false for the hello Interest of a consumer whose sync prefix is longer by three components: the node sends an
application nack that answers nothing. -/
theorem c100_hello_three (cfg : Cfg) (hwf : cfg.WF) (ccfg : CCfg) (s : Full) (hs : Full.Reach cfg s) (ext : Name)
    (hx : ccfg.syncPrefix = cfg.syncPrefix ++ ext) (h3 : ext.length = 3) : NacksAside cfg s (ccfg.syncPrefix ++ [HELLO]) := by
  rw [hx, List.append_assoc]
  exact nacks_of hwf (hello_not_stored hs (by rintro rfl; cases h3)) (by simp [h3])

/-- The consumer of Props/Consumer.lean, in a group whose sync prefix is longer by the given components. -/
def longerCCfg (ext : Name) : CCfg := { sampleCCfg with syncPrefix := sampleCfg.syncPrefix ++ ext }

/-- It may send a hello Interest. -/
theorem longer_asks (ext : Name) : ∃ o, Cons.Reach (longerCCfg ext) o ∧
    Out.interest ((longerCCfg ext).syncPrefix ++ [HELLO]) 1000 ∈ o.log := by
  have h0 : ∃ s0, Cons.init sampleCCfg = .ok s0 ∧ s0.log = [] := Res.of_get? (by decide +kernel)
  obtain ⟨s0, h0, _⟩ := h0
  have h1 : Cons.init (longerCCfg ext) = .ok s0 := h0
  have h2 : Cons.run (longerCCfg ext) s0 [.call .sendHello] = .ok (s0.sendHelloInterest (longerCCfg ext)) := rfl
  refine ⟨_, ⟨s0, _, h1, h2⟩, ?_⟩
  simp [Cons.sendHelloInterest, Cons.helloPrefix, longerCCfg, sampleCCfg]

/-- A full-sync node right after construction. -/
theorem new_node : ∃ s, Full.Reach sampleCfg s := by
  have h0 : ∃ s0, Full.init sampleCfg = .ok s0 ∧ s0.log.length = 1 := Res.of_get? (by decide +kernel)
  obtain ⟨s0, h0, _⟩ := h0
  exact ⟨s0, s0, [], h0, rfl⟩

/-- C100 is false as stated. -/
theorem c100_false : ¬ OthersIgnored := by
  intro h
  obtain ⟨s, hs⟩ := new_node
  obtain ⟨o, ho, hl⟩ := longer_asks (nameOf [120])
  have h1 := (h sampleCfg sampleCfg_wf s hs).2 _ o (List.prefix_append _ _) ho _ _ hl 1000 7
  rw [c100_hello_one sampleCfg _ s hs ⟨8, [120]⟩ rfl] at h1
  cases h1

/-- Non-vacuity for `c100_consumer_partial`: a consumer with the same sync prefix. -/
example : ∃ s o t, Full.Reach sampleCfg s ∧ Cons.Reach (longerCCfg []) o ∧
    Out.interest ((longerCCfg []).syncPrefix ++ [HELLO]) t ∈ o.log ∧ Ignores sampleCfg s ((longerCCfg []).syncPrefix ++ [HELLO]) := by
  obtain ⟨s, hs⟩ := new_node
  obtain ⟨o, ho, hl⟩ := longer_asks []
  refine ⟨s, o, _, hs, ho, hl, c100_consumer_partial _ _ s o hs [] rfl ho _ _ hl fun _ => ⟨by simp, by simp, fun _ t ht => ?_⟩⟩
  have : (Table.initialize sampleCfg.ibltCodec sampleCfg.expected HELLO).get? = none := by decide +kernel
  rw [ht] at this
  cases this

/-- Non-vacuity for `c100_hello_three`. -/
example : ∃ s, Full.Reach sampleCfg s ∧ NacksAside sampleCfg s ((longerCCfg (pA ++ pA ++ pB)).syncPrefix ++ [HELLO]) := by
  obtain ⟨s, hs⟩ := new_node
  exact ⟨s, hs, c100_hello_three _ sampleCfg_wf _ s hs _ rfl rfl⟩

/-- Non-vacuity for `c100_full_partial` and `c100_full_two`: nodes of groups that are one and two components longer. -/
example : ∃ s o1 o2 n1 n2, Full.Reach sampleCfg s ∧
    Full.Reach { sampleCfg with syncPrefix := sampleCfg.syncPrefix ++ pA } o1 ∧ Out.interest n1 1000 ∈ o1.log ∧ Ignores sampleCfg s n1 ∧
    Full.Reach { sampleCfg with syncPrefix := sampleCfg.syncPrefix ++ (pA ++ pB) } o2 ∧ Out.interest n2 1000 ∈ o2.log ∧
    NacksAside sampleCfg s n2 := by
  obtain ⟨s, hs⟩ := new_node
  have key : ∀ cfg : Cfg, (Full.init cfg).get?.map (fun s => s.log.map (fun o => match o with | .interest _ t => some t | _ => none)) =
      some [some 1000] → ∃ o n, Full.Reach cfg o ∧ Out.interest n 1000 ∈ o.log := by
    intro cfg h
    obtain ⟨o, h1, h2⟩ := Res.of_get? h
    match hl : o.log, h2 with
    | [.interest n t], h2 =>
      simp at h2
      subst h2
      exact ⟨o, n, ⟨o, [], h1, rfl⟩, by rw [hl]; simp⟩
  obtain ⟨o1, n1, h1, h1'⟩ := key { sampleCfg with syncPrefix := sampleCfg.syncPrefix ++ pA } (by decide +kernel)
  obtain ⟨o2, n2, h2, h2'⟩ := key { sampleCfg with syncPrefix := sampleCfg.syncPrefix ++ (pA ++ pB) } (by decide +kernel)
  exact ⟨s, o1, o2, n1, n2, hs, h1, h1', c100_full_partial _ _ s o1 hs pA rfl (by decide) (by decide) h1 _ _ h1',
    h2, h2', c100_full_two _ _ sampleCfg_wf s o2 hs (pA ++ pB) rfl rfl h2 _ _ h2'⟩

end PSync
