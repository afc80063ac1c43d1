import Verif.Props.Replica
import Verif.Props.FullAnswer
import Verif.Proofs.Flow
/-!
C117: full-sync nodes with the same publications give the same answers.
-/
namespace PSync
open Spec

/-- Going from `s` to `t` and from `s'` to `t'`, the two nodes put the same packets, up to versions. -/
def Spec.SameAnswers (s t s' t' : Full) : Prop :=
  ∃ out out', t.log = s.log ++ out ∧ t'.log = s'.log ++ out' ∧ SamePackets (dataOf out) (dataOf out')

/-- The full claim C117: nodes with the same sync prefix and options and the same sequence numbers give the same answers to every Interest that
neither answers from its store. -/
def Spec.TwinsAnswerAlike : Prop :=
  ∀ (cfg : Cfg) (version jitter : Nat → Nat) (s s' t t' : Full), 0 < cfg.expected → Full.Reach cfg s →
    Full.Reach { cfg with version := version, jitter := jitter } s' → (∀ p, s.base.getSeqNo p = s'.base.getSeqNo p) →
    ∀ i, s.pub.replyFromStore i.name = none → s'.pub.replyFromStore i.name = none → Full.step cfg s (.recvInterest i) = .ok t →
    Full.step { cfg with version := version, jitter := jitter } s' (.recvInterest i) = .ok t' → SameAnswers s t s' t'

namespace Full

theorem sameBase_of {cfg : Cfg} {version jitter : Nat → Nat} {s s' : Full} (he : 0 < cfg.expected) (hs : Full.Reach cfg s)
    (hs' : Full.Reach { cfg with version := version, jitter := jitter } s') (hc : CollisionFree s.base.hist) (hc' : CollisionFree s'.base.hist)
    (h : ∀ p, s.base.getSeqNo p = s'.base.getSeqNo p) : SameBase s.base s'.base := by
  have hi := Full.reach_inv hs
  have hi' := Full.reach_inv hs'
  have hp : s.base.prefixes = s'.base.prefixes := NMap.ext hi.sorted hi'.sorted h
  refine ⟨hp, ?_, ?_⟩
  · exact (c22_same_ibf_partial cfg { cfg with version := version, jitter := jitter } he rfl _ _ (.inl ⟨s, hs, rfl⟩) (.inl ⟨s', hs', rfl⟩) hc hc'
      (fun p x _ => by rw [h])).1
  · intro k
    have e1 := left_iff hi (Full.reach_exact hs hc) k
    have e2 := left_iff hi' (Full.reach_exact hs' hc') k
    rw [← hp] at e2
    cases hf : s.base.biMap.findLeft k with
    | some n => exact ((e2 n).mpr ((e1 n).mp hf)).symm
    | none =>
      cases hf' : s'.base.biMap.findLeft k with
      | none => rfl
      | some n => rw [(e1 n).mpr ((e2 n).mp hf')] at hf; cases hf

theorem index_same {b b' : Base} (h : SameBase b b') (p : Name) :
    (b.index p).1 = (b'.index p).1 ∧ SameBase (b.index p).2 (b'.index p).2 := by
  unfold Base.index
  rw [h.prefixes]
  split
  · exact ⟨rfl, h⟩
  · exact ⟨rfl, rfl, h.iblt, h.left⟩

theorem collect_same (neg : List U32) (ks : List U32) : ∀ {b b' : Base} (_ : SameBase b b') (acc : List Name),
    (collect neg b ks acc).1 = (collect neg b' ks acc).1 := by
  induction ks with
  | nil => intro b b' _ acc; rfl
  | cons k ks ih =>
    intro b b' h acc
    unfold collect
    rw [h.left k]
    cases b'.biMap.findLeft k with
    | none => exact ih h acc
    | some n =>
      dsimp only
      obtain ⟨e1, h1⟩ := index_same h (Name.dropLast n 1)
      generalize b.index (Name.dropLast n 1) = x at e1 h1 ⊢
      generalize b'.index (Name.dropLast n 1) = x' at e1 h1 ⊢
      obtain ⟨q, b1⟩ := x
      obtain ⟨q', b1'⟩ := x'
      simp only at e1 h1 ⊢
      subst e1
      by_cases hq : q ≠ 0
      · rw [if_pos hq, if_pos hq]
        unfold isFutureHash
        obtain ⟨e2, h2⟩ := index_same h1 (Name.dropLast n 1)
        generalize b1.index (Name.dropLast n 1) = y at e2 h2 ⊢
        generalize b1'.index (Name.dropLast n 1) = y' at e2 h2 ⊢
        obtain ⟨r, b2⟩ := y
        obtain ⟨r', b2'⟩ := y'
        simp only at e2 h2 ⊢
        subst e2
        generalize decide (nameHash (Name.appendNumber (Name.dropLast n 1) ((r + 1) % U64)) ∈ neg) = f
        cases f
        · exact ih h2 _
        · exact ih h2 acc
      · rw [if_neg hq, if_neg hq]
        exact ih h1 acc

/-- Nothing but Interests is sent. -/
def Quiet (s t : Full) : Prop := ∃ out, t.log = s.log ++ out ∧ dataOf out = []

theorem Quiet.same {s t s' t' : Full} (h : Quiet s t) (h' : Quiet s' t') : SameAnswers s t s' t' := by
  obtain ⟨o, h1, h2⟩ := h
  obtain ⟨o', h1', h2'⟩ := h'
  exact ⟨o, o', h1, h1', by rw [h2, h2']; trivial⟩

theorem quiet_of_log {s t : Full} (h : t.log = s.log) : Quiet s t := ⟨[], by rw [h, List.append_nil], rfl⟩

theorem waitOrGiveUp_log (cfg : Cfg) (s : Full) (i : Interest) (timed : Bool) : (waitOrGiveUp cfg s i timed).1.log = s.log := by
  unfold waitOrGiveUp
  split
  · split
    · rw [scheduleProcess_eq]
    · rfl
  · split
    · split
      · show (s.markWaiting i.name).log = s.log
        rw [markWaiting_eq]
      · rfl
    · rfl

theorem sendSyncInterest_quiet {cfg : Cfg} {s t : Full} (h : sendSyncInterest cfg s = .ok t) : Quiet s t := by
  obtain ⟨_, is, h2, h3⟩ := sendSyncInterest_log h
  exact ⟨is, h2, h3.dataOf⟩

theorem markWaiting_log (s : Full) (n : Name) : (s.markWaiting n).log = s.log := by rw [markWaiting_eq]

theorem toList_same (n : Name) (v v' : Nat) (buf : Bytes) (fr k : Nat) :
    SamePackets ((segmentData (n.appendVersion v) buf fr)[k]?).toList ((segmentData (n.appendVersion v') buf fr)[k]?).toList := by
  have h := segment_same n v v' buf fr k
  cases h1 : (segmentData (n.appendVersion v) buf fr)[k]? <;> cases h2 : (segmentData (n.appendVersion v') buf fr)[k]? <;>
    rw [h1, h2] at h <;> exact h

theorem sendSyncData_same {cfg cfg' : Cfg} {s t s' t' : Full} {name : Name} {content : List Name} {fr : Nat}
    (hcd : cfg'.contentCodec = cfg.contentCodec) (h : sendSyncData cfg s name (encodeNames content) fr = .ok t)
    (h' : sendSyncData cfg' s' name (encodeNames content) fr = .ok t') : SameAnswers s t s' t' := by
  obtain ⟨buf, r, is, h1, h2, _, h4, h5, _⟩ := sendSyncData_replied h
  obtain ⟨buf', r', is', h1', h2', _, h4', h5', _⟩ := sendSyncData_replied h'
  rw [hcd, h1] at h1'
  cases h1'
  obtain ⟨_, _, last, seg, g1, g2, g3⟩ := PSync.publish_ok h2
  obtain ⟨_, _, last', seg', g1', g2', g3'⟩ := PSync.publish_ok h2'
  rw [g1] at g1'; cases g1'
  rw [g2] at g2'; cases g2'
  refine ⟨_, _, (h4.trans (List.append_assoc _ _ _)), (h4'.trans (List.append_assoc _ _ _)), ?_⟩
  rw [dataOf_append, dataOf_append, dataOf_map, dataOf_map, h5.dataOf, h5'.dataOf, List.append_nil, List.append_nil, g3, g3']
  exact toList_same _ _ _ _ _ _

theorem answers_logs {s t s' t' u u' v v' : Full} (h : SameAnswers s t s' t') (h1 : s.log = u.log) (h2 : t.log = v.log) (h3 : s'.log = u'.log)
    (h4 : t'.log = v'.log) : SameAnswers u v u' v' := by
  obtain ⟨o, o', e, e', hs⟩ := h
  exact ⟨o, o', by rw [← h2, e, h1], by rw [← h4, e', h3], hs⟩

theorem onDecoded_same {cfg : Cfg} {version jitter : Nat → Nat} {s t s' t' : Full} (hb : SameBase s.base s'.base) {i : Interest} {ib : Table} {d : IBLTDiff}
    (h : onDecoded cfg s i false ib d = .ok t) (h' : onDecoded { cfg with version := version, jitter := jitter } s' i false ib d = .ok t') :
    SameAnswers s t s' t' := by
  unfold onDecoded at h h'
  by_cases c1 : (d.positive.isEmpty && d.negative.isEmpty) = true
  · rw [if_pos c1] at h h'
    cases h; cases h'
    exact (quiet_of_log rfl).same (quiet_of_log rfl)
  · rw [if_neg c1] at h h'
    by_cases c2 : d.positive.isEmpty = true
    · rw [if_pos c2] at h h'
      cases h; cases h'
      exact (quiet_of_log (waitOrGiveUp_log _ _ _ _)).same (quiet_of_log (waitOrGiveUp_log _ _ _ _))
    · rw [if_neg c2] at h h'
      have e := collect_same d.negative d.positive hb []
      generalize collect d.negative s.base d.positive [] = x at h e
      generalize collect d.negative s'.base d.positive [] = x' at h' e
      obtain ⟨content, b⟩ := x
      obtain ⟨content', b'⟩ := x'
      simp only at e
      subst e
      simp only at h h'
      by_cases c3 : content.isEmpty = true
      · rw [if_pos c3] at h h'
        cases h; cases h'
        exact (quiet_of_log rfl).same (quiet_of_log rfl)
      · rw [if_neg c3] at h h'
        simp only [Res.bind_eq_ok, Res.ok.injEq] at h h'
        obtain ⟨u, h1, rfl⟩ := h
        obtain ⟨u', h1', rfl⟩ := h'
        exact answers_logs (sendSyncData_same (cfg := cfg) (cfg' := { cfg with version := version, jitter := jitter }) rfl h1 h1') rfl (markWaiting_log _ _).symm rfl (markWaiting_log _ _).symm

theorem onUndecodable_same {cfg : Cfg} {version jitter : Nat → Nat} {s t s' t' : Full} (hb : SameBase s.base s'.base) (hn : s.base.numOwn = s'.base.numOwn)
    {i : Interest} {num : Nat} {d : IBLTDiff} (h : onUndecodable cfg s i false num d = .ok t)
    (h' : onUndecodable { cfg with version := version, jitter := jitter } s' i false num d = .ok t') : SameAnswers s t s' t' := by
  have wait : ∀ (cfg : Cfg) (s t : Full), (match waitOrGiveUp cfg s i false with | (s, true) => sendSyncInterest cfg s | (s, false) => .ok s) = .ok t →
      Quiet s t := by
    intro cfg s t h
    have e := waitOrGiveUp_log cfg s i false
    generalize waitOrGiveUp cfg s i false = x at h e
    obtain ⟨u, g⟩ := x
    cases g
    · cases h; exact quiet_of_log e
    · obtain ⟨o, h1, h2⟩ := sendSyncInterest_quiet h
      exact ⟨o, by rw [h1, e], h2⟩
  unfold onUndecodable at h h'
  rw [← hn] at h'
  by_cases c1 : num > s.base.numOwn
  · rw [if_pos c1] at h h'
    exact (wait _ _ _ h).same (wait _ _ _ h')
  · rw [if_neg c1] at h h'
    by_cases c2 : s.base.numOwn = num ∧ d.positive.length = 0 ∧ d.negative.length > 0
    · rw [if_pos c2] at h h'
      cases h; cases h'
      exact (quiet_of_log rfl).same (quiet_of_log rfl)
    · rw [if_neg c2] at h h'
      have e : allContent s'.base = allContent s.base := by unfold allContent; rw [hb.prefixes]
      simp only [e] at h h'
      by_cases c3 : (allContent s.base).isEmpty = true
      · rw [if_pos c3] at h h'
        cases h; cases h'
        exact (quiet_of_log (markWaiting_log _ _)).same (quiet_of_log (markWaiting_log _ _))
      · rw [if_neg c3] at h h'
        simp only [Res.bind_eq_ok, Res.ok.injEq] at h h'
        obtain ⟨u, h1, rfl⟩ := h
        obtain ⟨u', h1', rfl⟩ := h'
        exact answers_logs (sendSyncData_same (cfg := cfg) (cfg' := { cfg with version := version, jitter := jitter }) rfl h1 h1') rfl
          (markWaiting_log (u.deletePending i.name) _).symm rfl (markWaiting_log (u'.deletePending i.name) _).symm

theorem interest_same {cfg : Cfg} {version jitter : Nat → Nat} {s t s' t' : Full} (hb : SameBase s.base s'.base) {i : Interest}
    (hn : s.base.numOwn = s'.base.numOwn ∨ ∀ c g ib d, i.name = cfg.syncPrefix ++ [c, g] → Table.initialize cfg.ibltCodec cfg.expected c = .ok ib →
      Table.diff cfg.fuel s.base.iblt ib = .ok d → d.canDecode = true)
    (hst : s.pub.replyFromStore i.name = none) (hst' : s'.pub.replyFromStore i.name = none)
    (h : step cfg s (.recvInterest i) = .ok t) (h' : step { cfg with version := version, jitter := jitter } s' (.recvInterest i) = .ok t') :
    SameAnswers s t s' t' := by
  simp only [step] at h h'
  by_cases hp : cfg.syncPrefix.isPrefixOf i.name = true
  swap
  · rw [if_neg hp] at h h'
    cases h; cases h'
    exact (quiet_of_log rfl).same (quiet_of_log rfl)
  rw [if_pos hp] at h h'
  unfold onSyncInterest at h h'
  rw [hst] at h
  rw [hst'] at h'
  simp only at h h'
  by_cases c4 : (i.name.drop cfg.syncPrefix.length).length = 4
  · rw [if_pos c4] at h h'
    simp only [Res.bind_eq_ok, Res.ok.injEq] at h h'
    obtain ⟨d, h1, rfl⟩ := h
    obtain ⟨d', h1', rfl⟩ := h'
    have e : d = d' := by
      unfold nackData at h1 h1'
      rw [← hb.iblt] at h1'
      have h1'' : nackData cfg s.base cfg.syncPrefix = .ok d' := by unfold nackData; exact h1'
      unfold nackData at h1''
      rw [h1] at h1''
      cases h1''; rfl
    subst e
    exact ⟨[.data d], [.data d], rfl, rfl, .inl rfl, trivial⟩
  rw [if_neg c4] at h h'
  by_cases c2 : (i.name.drop cfg.syncPrefix.length).length ≠ 2
  · rw [if_pos c2] at h h'
    cases h; cases h'
    exact (quiet_of_log rfl).same (quiet_of_log rfl)
  rw [if_neg c2] at h h'
  simp only [Res.bind_eq_ok] at h h'
  obtain ⟨c, k1, last, k2, num, k3, h⟩ := h
  obtain ⟨c', k1', last', k2', num', k3', h'⟩ := h'
  rw [k1] at k1'; cases k1'
  rw [k2] at k2'; cases k2'
  rw [k3] at k3'; cases k3'
  have hname : i.name = cfg.syncPrefix ++ [c, last] := by
    obtain ⟨r, hr⟩ := List.isPrefixOf_iff_prefix.mp hp
    rw [← hr] at c2 k1 k2 ⊢
    rw [List.drop_left] at c2
    match r, c2 with
    | [a, b], _ =>
      have e1 : Name.getFromEnd (cfg.syncPrefix ++ [a, b]) 2 = .ok a := getFromEnd_two _ _ _
      have e2 : Name.getFromEnd (cfg.syncPrefix ++ [a, b]) 1 = .ok b := getFromEnd_last _ _ _
      rw [e1] at k1; rw [e2] at k2
      cases k1; cases k2; rfl
    | [], c2 => simp at c2
    | [_], c2 => simp at c2
    | _ :: _ :: _ :: _, c2 => simp at c2
  cases hi : Table.initialize cfg.ibltCodec cfg.expected c with
  | throw e =>
    rw [hi] at h h'
    cases h; cases h'
    exact (quiet_of_log rfl).same (quiet_of_log rfl)
  | ub u => rw [hi] at h; cases h
  | hang => rw [hi] at h; cases h
  | ok ib =>
    rw [hi] at h h'
    simp only [Res.bind_eq_ok] at h h'
    obtain ⟨d, k4, h⟩ := h
    obtain ⟨d', k4', h'⟩ := h'
    rw [← hb.iblt, k4] at k4'; cases k4'
    by_cases cd : (!d.canDecode) = true
    · rw [if_pos cd] at h h'
      rcases hn with hn | hn
      · exact onUndecodable_same hb hn h h'
      · rw [hn _ _ _ _ hname hi k4] at cd; cases cd
    · rw [if_neg cd] at h h'
      exact onDecoded_same hb h h'

theorem answers_trans {s t u s' t' u' : Full} (h : SameAnswers s t s' t') (h2 : SameAnswers t u t' u') : SameAnswers s u s' u' := by
  obtain ⟨o, o', e, e', hp⟩ := h
  obtain ⟨w, w', f, f', hq⟩ := h2
  refine ⟨o ++ w, o' ++ w', by rw [f, e, List.append_assoc], by rw [f', e', List.append_assoc], ?_⟩
  rw [dataOf_append, dataOf_append]
  exact samePackets_append hp hq

theorem satisfyOne_same {cfg : Cfg} {version jitter : Nat → Nat} {s t s' t' : Full} (hb : SameBase s.base s'.base) {u : Name} {e e' : Name × FPending}
    (he : (e.1, e.2.iblt) = (e'.1, e'.2.iblt)) (h : satisfyOne cfg u s e = .ok t)
    (h' : satisfyOne { cfg with version := version, jitter := jitter } u s' e' = .ok t') : SameAnswers s t s' t' := by
  unfold satisfyOne at h h'
  simp only [Res.bind_eq_ok, Res.ok.injEq, Prod.mk.injEq] at h h' he
  obtain ⟨d, h1, v, h2, rfl⟩ := h
  obtain ⟨d', h1', v', h2', rfl⟩ := h'
  rw [← hb.iblt, ← he.2, h1] at h1'
  cases h1'
  have ec : satisfyContent s'.base d.positive u = satisfyContent s.base d.positive u := by
    unfold satisfyContent
    rw [show s'.base.biMap.findLeft = s.base.biMap.findLeft from funext fun k => (hb.left k).symm]
  rw [ec, ← he.1] at h2'
  exact answers_logs (sendSyncData_same (cfg := cfg) (cfg' := { cfg with version := version, jitter := jitter }) rfl h2 h2') rfl rfl rfl rfl

theorem satisfy_same {cfg : Cfg} {version jitter : Nat → Nat} {u : Name} : ∀ (l l' : List (Name × FPending)) {s t s' t' : Full}
    (_ : SameBase s.base s'.base) (_ : l.map (fun e => (e.1, e.2.iblt)) = l'.map (fun e => (e.1, e.2.iblt)))
    (_ : foldRes (satisfyOne cfg u) s l = .ok t) (_ : foldRes (satisfyOne { cfg with version := version, jitter := jitter } u) s' l' = .ok t'),
    SameAnswers s t s' t'
  | [], [], s, t, s', t', _, _, h, h' => by
    cases h; cases h'
    exact (quiet_of_log rfl).same (quiet_of_log rfl)
  | e :: l, e' :: l', s, t, s', t', hb, hl, h, h' => by
    simp only [foldRes, Res.bind_eq_ok] at h h'
    obtain ⟨v, h1, h2⟩ := h
    obtain ⟨v', h1', h2'⟩ := h'
    simp only [List.map_cons, List.cons.injEq] at hl
    refine answers_trans (satisfyOne_same hb hl.1 h1 h1') (satisfy_same l l' ?_ hl.2 h2 h2')
    rw [satisfyOne_core h1, satisfyOne_core h1']
    exact hb
  | [], _ :: _, _, _, _, _, _, hl, _, _ => by simp at hl
  | _ :: _, [], _, _, _, _, _, hl, _, _ => by simp at hl

end Full

/-- C117, partial: two nodes with the same sync prefix and options and the same sequence numbers, from whose maps the same amount has been
removed (for example, nothing), put the same packets, up to the versions, in answer to every Interest that neither answers from its store.
Clocks, jitter, histories, what is parked, waiting and fetched may differ.  (Missing: hash collisions; different removals, `c117_false`.) -/
theorem c117_answers_partial (cfg : Cfg) (version jitter : Nat → Nat) (s s' t t' : Full) (he : 0 < cfg.expected) (hs : Full.Reach cfg s)
    (hs' : Full.Reach { cfg with version := version, jitter := jitter } s') (hc : CollisionFree s.base.hist) (hc' : CollisionFree s'.base.hist)
    (h : ∀ p, s.base.getSeqNo p = s'.base.getSeqNo p) (hr : sumRemoved s.base.hist = sumRemoved s'.base.hist) (i : Interest)
    (hst : s.pub.replyFromStore i.name = none) (hst' : s'.pub.replyFromStore i.name = none) (ht : Full.step cfg s (.recvInterest i) = .ok t)
    (ht' : Full.step { cfg with version := version, jitter := jitter } s' (.recvInterest i) = .ok t') : SameAnswers s t s' t' := by
  have hb := Full.sameBase_of he hs hs' hc hc' h
  refine Full.interest_same hb (.inl ?_) hst hst' ht ht'
  have own : ∀ {cfg : Cfg} {s : Full}, Full.Reach cfg s → s.base.numOwn = (sumSeq s.base.prefixes + sumRemoved s.base.hist) % 2 ^ 64 := by
    intro cfg s hs
    have hinv := Full.reach_inv hs
    have := hinv.own
    rw [Nat.mod_eq_of_lt hinv.ownLt] at this
    exact this
  rw [own hs, own hs', hr, hb.prefixes]

/-- C117, partial: whatever has been removed, the two nodes put the same packets in answer to a sync Interest whose IBF decodes against theirs.
(Missing: hash collisions.) -/
theorem c117_decodable_partial (cfg : Cfg) (version jitter : Nat → Nat) (s s' t t' : Full) (he : 0 < cfg.expected) (hs : Full.Reach cfg s)
    (hs' : Full.Reach { cfg with version := version, jitter := jitter } s') (hc : CollisionFree s.base.hist) (hc' : CollisionFree s'.base.hist)
    (h : ∀ p, s.base.getSeqNo p = s'.base.getSeqNo p) (i : Interest) (c g : Component) (ib : Table) (d : IBLTDiff)
    (hn : i.name = cfg.syncPrefix ++ [c, g]) (hi : Table.initialize cfg.ibltCodec cfg.expected c = .ok ib)
    (hd : Table.diff cfg.fuel s.base.iblt ib = .ok d) (hdec : d.canDecode = true)
    (hst : s.pub.replyFromStore i.name = none) (hst' : s'.pub.replyFromStore i.name = none) (ht : Full.step cfg s (.recvInterest i) = .ok t)
    (ht' : Full.step { cfg with version := version, jitter := jitter } s' (.recvInterest i) = .ok t') : SameAnswers s t s' t' := by
  refine Full.interest_same (Full.sameBase_of he hs hs' hc hc' h) (.inr ?_) hst hst' ht ht'
  intro c' g' ib' d' e1 e2 e3
  rw [hn] at e1
  have := List.append_cancel_left e1
  cases this
  rw [hi] at e2; cases e2
  rw [hd] at e3; cases e3
  exact hdec

/-- C117, partial: when the two nodes hold back the same Interests and publish the same name and number, they put the same packets, up to the
versions, and have the same sequence numbers again.  (Missing: hash collisions.) -/
theorem c117_publish_partial (cfg : Cfg) (version jitter : Nat → Nat) (s s' t t' : Full) (he : 0 < cfg.expected) (hs : Full.Reach cfg s)
    (hs' : Full.Reach { cfg with version := version, jitter := jitter } s') (h : ∀ p, s.base.getSeqNo p = s'.base.getSeqNo p)
    (hk : s.pending.map (fun e => (e.1, e.2.iblt)) = s'.pending.map (fun e => (e.1, e.2.iblt))) (p : Name) (seq : Option Nat)
    (ht : Full.step cfg s (.call (.publishName p seq)) = .ok t)
    (ht' : Full.step { cfg with version := version, jitter := jitter } s' (.call (.publishName p seq)) = .ok t')
    (hc : CollisionFree t.base.hist) (hc' : CollisionFree t'.base.hist) :
    (∀ q, t.base.getSeqNo q = t'.base.getSeqNo q) ∧ SameAnswers s t s' t' := by
  have hr := Full.Reach.next hs ht
  have hr' := Full.Reach.next hs' ht'
  simp only [Full.step, Full.call, Full.publishName] at ht ht'
  have hp := h p
  unfold Base.getSeqNo at hp
  cases hf : s.base.prefixes.find p with
  | none =>
    rw [hf] at ht hp
    rw [← hp] at ht'
    cases ht; cases ht'
    exact ⟨h, (Full.quiet_of_log rfl).same (Full.quiet_of_log rfl)⟩
  | some cur =>
    rw [hf] at ht hp
    rw [← hp] at ht'
    simp only [Res.bind_eq_ok] at ht ht'
    obtain ⟨b, h1, h2⟩ := ht
    obtain ⟨b', h1', h2'⟩ := ht'
    have eb : t.base = b := Full.satisfyPending_base h2
    have eb' : t'.base = b' := Full.satisfyPending_base h2'
    have hsame : ∀ q, t.base.getSeqNo q = t'.base.getSeqNo q := by
      intro q
      have hq := h q
      unfold Base.getSeqNo at hq ⊢
      rw [eb, eb', Base.find_updateSeqNo h1, Base.find_updateSeqNo h1', hq, hf, ← hp]
    have hb := Full.sameBase_of he hr hr' hc hc' hsame
    rw [eb, eb'] at hb
    exact ⟨hsame, Full.answers_logs (Full.satisfy_same _ _ hb hk h2 h2') rfl rfl rfl rfl⟩

/-! ### The claim is false after different removals -/

/-- A prefix is added, published once and removed. -/
def goneOps : List Full.Op := [.call (.addUserNode (nameOf [7])), .call (.publishName (nameOf [7]) none), .call (.removeUserNode (nameOf [7]))]

/-- What a node makes of an Interest: its sequence numbers, what has been removed, whether the store is silent, the number of packets before and after. -/
def twinOut (ops : List Full.Op) (n : Name) : Option (NMap Nat × Nat × Bool × Nat × Nat) :=
  match Full.init sampleCfg with
  | .ok s0 => match Full.run sampleCfg s0 ops with
    | .ok s => match Full.step sampleCfg s (.recvInterest ⟨n, 1000, 1⟩) with
      | .ok t => some (s.base.prefixes, sumRemoved s.base.hist, (s.pub.replyFromStore n).isNone, (dataOf s.log).length, (dataOf t.log).length)
      | _ => none
    | _ => none
  | _ => none

theorem twinOut_eq {ops : List Full.Op} {n : Name} {m : NMap Nat} {r a b : Nat} (h : twinOut ops n = some (m, r, true, a, b)) :
    ∃ s t, Full.Reach sampleCfg s ∧ Full.step sampleCfg s (.recvInterest ⟨n, 1000, 1⟩) = .ok t ∧ s.base.prefixes = m ∧
      s.pub.replyFromStore n = none ∧ (dataOf s.log).length = a ∧ (dataOf t.log).length = b := by
  unfold twinOut at h
  cases h0 : Full.init sampleCfg with
  | throw _ => simp [h0] at h
  | ub _ => simp [h0] at h
  | hang => simp [h0] at h
  | ok s0 =>
  simp only [h0] at h
  cases h1 : Full.run sampleCfg s0 ops with
  | throw _ => simp [h1] at h
  | ub _ => simp [h1] at h
  | hang => simp [h1] at h
  | ok s =>
  simp only [h1] at h
  cases h2 : Full.step sampleCfg s (.recvInterest ⟨n, 1000, 1⟩) with
  | throw _ => simp [h2] at h
  | ub _ => simp [h2] at h
  | hang => simp [h2] at h
  | ok t =>
  simp only [h2, Option.some.injEq, Prod.mk.injEq, Option.isNone_iff_eq_none] at h
  exact ⟨s, t, ⟨s0, ops, h0, h1⟩, h2, h.1, h.2.2.1, h.2.2.2.1, h.2.2.2.2⟩

/-- The name of the sync Interest of a node. -/
def twinName (ops : List Full.Op) : Name :=
  match Res.bind (Full.init sampleCfg) fun s => Full.run sampleCfg s ops with
  | .ok s => match Full.syncName sampleCfg s.base with
    | .ok n => n
    | _ => []
  | _ => []

theorem samePackets_length : ∀ {ds ds' : List Data}, SamePackets ds ds' → ds.length = ds'.length
  | [], [], _ => rfl
  | _ :: ds, _ :: ds', h => congrArg Nat.succ (samePackets_length (ds := ds) (ds' := ds') h.2)
  | [], _ :: _, h => h.elim
  | _ :: _, [], h => h.elim

/-- Two nodes have published the same nine names; one of them has also published and removed another.  A third node, with nine other
publications and one removed, asks: the IBFs do not decode, and only the node that has removed something answers. -/
theorem twin_witness :
    (twinOut (nineOps 1) (twinName (goneOps ++ nineOps 2))).bind (fun a => (twinOut (goneOps ++ nineOps 1) (twinName (goneOps ++ nineOps 2))).map fun b =>
      (decide (a.1 = b.1), a.2, b.2)) = some (true, (0, true, 0, 0), (1, true, 0, 1)) := by
  decide +kernel

/-- C117 is false: nodes with the same sequence numbers answer differently when different prefixes have been removed from them. -/
theorem c117_false : ¬ Spec.TwinsAnswerAlike := by
  intro h
  have hw := twin_witness
  simp only [Option.bind_eq_some_iff, Option.map_eq_some_iff, Prod.mk.injEq, decide_eq_true_eq] at hw
  obtain ⟨⟨m, x⟩, ha, ⟨m', x'⟩, hb, hm, rfl, rfl⟩ := hw
  simp only at hm
  subst hm
  obtain ⟨s, t, h1, h2, h3, h4, h5, h6⟩ := twinOut_eq ha
  obtain ⟨s', t', h1', h2', h3', h4', h5', h6'⟩ := twinOut_eq hb
  obtain ⟨o, o', e, e', hp⟩ := h sampleCfg sampleCfg.version sampleCfg.jitter s s' t t' (by decide) h1 h1'
    (fun p => by unfold Base.getSeqNo; rw [h3, h3']) _ h4 h4' h2 h2'
  have hl := samePackets_length hp
  rw [e, dataOf_append, List.length_append, h5] at h6
  rw [e', dataOf_append, List.length_append, h5'] at h6'
  omega

/-- Non-vacuity for C117: two nodes with the same numbers, reached without collisions in different orders, answer the undecodable Interest of a
third node; and after different removals still answer a decodable one. -/
def twoByTwo (x : Byte) : List Full.Op :=
  ([9, 8, 7, 6, 5, 4, 3, 2, 1] : List Byte).flatMap (fun k => [.call (.addUserNode (nameOf [x, k]))]) ++
  ([1, 2, 3, 4, 5, 6, 7, 8, 9] : List Byte).flatMap (fun k => [.call (.publishName (nameOf [x, k]) none)])

/-- Two prefixes, one of them published as `q` first. -/
def twinOps (q : Nat) : List Full.Op :=
  [.call (.addUserNode pB), .call (.addUserNode pA), .call (.publishName pA (some q)), .call (.publishName pB none), .call (.publishName pA (some 9))]

set_option synthInstance.maxSize 1024 in
example : (twinOut (nineOps 1) (twinName (nineOps 2))).map (·.2) = some (0, true, 0, 1) ∧
    (twinOut (twoByTwo 1) (twinName (nineOps 2))).map (·.2) = some (0, true, 0, 1) ∧
    (twinOut (nineOps 1) (twinName (nineOps 2))).map (·.1) = (twinOut (twoByTwo 1) (twinName (nineOps 2))).map (·.1) := by
  decide +kernel

set_option synthInstance.maxSize 1024 in
example : twinOut (twinOps 3) (twinName [.call (.addUserNode pA), .call (.publishName pA (some 3))]) = some ([(pA, 9), (pB, 1)], 0, true, 0, 1) ∧
    twinOut (goneOps ++ twinOps 4) (twinName [.call (.addUserNode pA), .call (.publishName pA (some 3))]) = some ([(pA, 9), (pB, 1)], 1, true, 0, 1) := by
  decide +kernel

example : ((Res.bind (Full.init sampleCfg) fun s => Full.run sampleCfg s (goneOps ++ twinOps 4)).get?.map fun s => checkHist s.base.hist) = some true ∧
    ((Res.bind (Full.init sampleCfg) fun s => Full.run sampleCfg s (twinOps 3)).get?.map fun s => checkHist s.base.hist) = some true := by
  decide +kernel

/-- The Interests held back, their IBFs and the packets before and after publishing `pB`. -/
def twinPublish (ops : List Full.Op) : Option (List (Name × Table) × Nat × Nat) :=
  (Res.bind (Full.init sampleCfg) fun s => Full.run sampleCfg s ops).get?.bind fun s =>
    (Full.step sampleCfg s (.call (.publishName pB none))).get?.map fun t =>
      (s.pending.map (fun e => (e.1, e.2.iblt)), (dataOf s.log).length, (dataOf t.log).length)

/-- Non-vacuity for `c117_publish_partial`: both hold back the same Interest and answer it when they publish. -/
def heldOps : List Full.Op := [.recvInterest ⟨twinName (twinOps 3), 1000, 1⟩]

set_option synthInstance.maxSize 1024 in
example : twinPublish (twinOps 3 ++ heldOps) = twinPublish (goneOps ++ twinOps 4 ++ heldOps) ∧
    (twinPublish (twinOps 3 ++ heldOps)).map (fun x => (x.1.length, x.2)) = some (1, 0, 1) := by
  decide +kernel

end PSync
