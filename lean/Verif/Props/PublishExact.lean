import Verif.Spec.PublishExact
import Verif.Props.FullPending
import Verif.Props.FullTimers
import Verif.Props.Replies
/-!
C29, C37 and C38 without exceptions: exactly what publishName sends, when that is current, and exactly when an attempt leaves an Interest outstanding.
-/
namespace PSync
open Spec

theorem publish_asked {limit : Nat} {p : SegPub} {now v : Nat} {name dname : Name} {buf : Bytes} {fr : Nat} {r : SegPub × List Data}
    (h : p.publish limit now v name dname buf fr = .ok r) :
    r.2 = ((segmentData (dname.appendVersion v) buf fr)[segmentAsked name]?).toList := by
  rcases List.eq_nil_or_concat name with rfl | ⟨l, c, rfl⟩
  · simp [SegPub.publish, Name.getFromEnd, Res.bind] at h
  · unfold SegPub.publish at h
    simp only [List.concat_eq_append] at h
    have hc : Name.getFromEnd (l ++ [c]) 1 = .ok c := by rw [getFromEnd_one (by simp)]; simp
    rw [hc, Res.ok_bind, Res.bind_eq_ok] at h
    obtain ⟨k, hk, h⟩ := h
    have e : segmentAsked (l.concat c) = k := by
      simp only [segmentAsked, List.concat_eq_append, List.getLast?_append_cons, List.getLast?_singleton]
      simp only [Component.isSegment, Component.toNumber] at hk
      by_cases h1 : c.type = 50
      · cases h2 : readNni c.value with
        | none => simp [h2] at hk; simp [hk]
        | some x => simp [h1, h2, TlvType.segment, Res.ofOption] at hk; simp [h1, hk]
      · have h3 : ¬ c.type = TlvType.segment := h1
        simp [h3] at hk
        simp [h1, hk]
    rw [Res.ok.injEq] at h
    subst h
    rw [e]
    simp only
    cases (segmentData (dname.appendVersion v) buf fr)[k]? <;> rfl

namespace Full

theorem satisfyLoop_asked {cfg : Cfg} (hl : cfg.contentCodec.Lossless) {u : Name} (es : List (Name × FPending)) :
    ∀ {s s' : Full}, foldRes (satisfyOne cfg u) s es = .ok s' →
    (∀ k, s'.pending.find k = if k ∈ es.map Prod.fst then none else s.pending.find k) ∧
    ∃ ext os, s'.log = s.log ++ ext ∧ dataOf ext = os.filterMap id ∧
      List.Forall₂ (fun e o => ∃ content, u ∈ content ∧ PacketOfReply cfg e.1 content (segmentAsked e.1) o) es os := by
  induction es with
  | nil =>
    intro s s' h
    simp only [foldRes, Res.ok.injEq] at h
    subst h
    exact ⟨fun k => by simp, [], [], by simp, rfl, .nil⟩
  | cons e es ih =>
    intro s s' h
    simp only [foldRes, Res.bind_eq_ok] at h
    obtain ⟨s1, h1, h2⟩ := h
    obtain ⟨_, a2, content, hu, ⟨buf, r, is, e1, e2, _, e4, e5, _⟩⟩ := satisfyOne_replied h1
    obtain ⟨b2, ext2, os2, b3, b4, b5⟩ := ih h2
    have hp := publish_asked e2
    refine ⟨?_, r.2.map Out.data ++ is ++ ext2,
      (segmentData (e.1.appendVersion (cfg.version s.replies.length)) buf cfg.freshness)[segmentAsked e.1]? :: os2, by rw [b3, e4]; simp only [List.append_assoc], ?_, .cons ⟨content, hu, ?_⟩ b5⟩
    · intro k
      rw [b2 k, a2, NMap.find_erase]
      simp only [List.map_cons, List.mem_cons]
      by_cases hk : k ∈ es.map Prod.fst
      · simp [hk]
      · by_cases hke : k = e.1
        · simp [hke]
        · have hke' : ¬ e.1 = k := fun h => hke h.symm
          simp [hk, hke, hke']
    · rw [dataOf_append, dataOf_append, dataOf_map, e5.dataOf, hp, b4]
      cases (segmentData (e.1.appendVersion (cfg.version s.replies.length)) buf cfg.freshness)[segmentAsked e.1]? <;> simp
    · refine ⟨_, buf, _, _, segmentData_spec _ _ _, rfl, ?_⟩
      obtain ⟨y, f1, f2⟩ := hl (encodeNames content)
      rw [e1, Option.some.injEq] at f1
      rw [f1]; exact f2

end Full

/-- C29, exactly, for Interests with any name: publishName on a registered prefix empties the list of parked Interests, and for every
one of them, in order, puts the packet it asks for of a reply that contains `p/number`: the first packet, or, if the name ends in
a segment number, the packet with that number, and nothing if the reply has no such packet. -/
theorem c29_exact (cfg : Cfg) (hwf : cfg.WF) (s s' : Full) (p : Name) (cur : Nat) (seq : Option Nat)
    (hp : s.base.getSeqNo p = some cur) (h : Full.step cfg s (.call (.publishName p seq)) = .ok s') :
    s'.pending = [] ∧ ∃ ext os, s'.log = s.log ++ ext ∧ dataOf ext = os.filterMap id ∧
      List.Forall₂ (fun n o => ∃ content, Name.appendNumber p ((seq.getD (cur + 1)) % 2 ^ 64) ∈ content ∧
        PacketOfReply cfg n content (segmentAsked n) o) s.pending.keys os := by
  have hfind : s.base.prefixes.find p = some cur := hp
  simp only [Full.step, Full.call, Full.publishName, hfind, Res.bind_eq_ok] at h
  obtain ⟨b, _, h2⟩ := h
  have hq : Full.newSeq seq cur = (seq.getD (cur + 1)) % 2 ^ 64 := by cases seq <;> rfl
  obtain ⟨h3, ext, os, h4, h5, h6⟩ := Full.satisfyLoop_asked hwf.content_lossless s.pending
    (s := { s with base := b, waitOut := false, made := s.made ++ [(p, Full.newSeq seq cur)] }) h2
  refine ⟨?_, ext, os, h4, h5, ?_⟩
  · apply Full.nil_of_find_none
    intro k
    rw [h3]
    split
    · rfl
    · rename_i hk
      cases hf : s.pending.find k with
      | none => rfl
      | some v => exact absurd (List.mem_map_of_mem (f := Prod.fst) (NMap.mem_of_find hf)) hk
  · rw [hq] at h6
    unfold NMap.keys
    rw [List.forall₂_map_left_iff]
    exact h6

/-- C37, exactly, for full sync: every Data sent by publishName belongs to a reply that contains `p/number` and otherwise only current
publications; and `p/number` is current if and only if the number is not 0 and not below the old one.  So something stale is
announced exactly if such a number is published while Interests are parked (that get a packet, `c29_exact`). -/
theorem c37_exact (cfg : Cfg) (hwf : cfg.WF) (s s' : Full) (hs : Full.Reach cfg s) (p : Name) (cur : Nat) (seq : Option Nat)
    (hp : s.base.getSeqNo p = some cur) (h : Full.publishName cfg s p seq = .ok s') :
    (∃ ext, s'.log = s.log ++ ext ∧ ∀ d, Out.data d ∈ ext → ∃ name content, PartOfReply cfg name content d ∧
      Name.appendNumber p ((seq.getD (cur + 1)) % 2 ^ 64) ∈ content ∧
      ∀ n ∈ content, n = Name.appendNumber p ((seq.getD (cur + 1)) % 2 ^ 64) ∨ IsLive s'.base.getSeqNo n) ∧
    (IsLive s'.base.getSeqNo (Name.appendNumber p ((seq.getD (cur + 1)) % 2 ^ 64)) ↔
      (seq.getD (cur + 1)) % 2 ^ 64 ≠ 0 ∧ cur ≤ (seq.getD (cur + 1)) % 2 ^ 64) := by
  have hsi := Full.reach_inv hs
  have hq : Full.newSeq seq cur = (seq.getD (cur + 1)) % 2 ^ 64 := by cases seq <;> rfl
  rw [← hq]
  unfold Full.publishName at h
  have hp' : s.base.prefixes.find p = some cur := hp
  simp only [hp', Res.bind_eq_ok] at h
  obtain ⟨b, h1, h2⟩ := h
  have hst : Base.Steps (fun _ => True) s.base b := Relation.ReflTransGen.single (.update p _ (Full.newSeq_lt _ _) h1)
  have hb : b.Inv := hst.inv hsi
  have := foldRes_rel (Q := fun a a' : Full => a.base = b → a'.base = b ∧ ∃ ext, a'.log = a.log ++ ext ∧
      ∀ d, Out.data d ∈ ext → ∃ name content, PartOfReply cfg name content d ∧ Name.appendNumber p (Full.newSeq seq cur) ∈ content ∧
        ∀ n ∈ content, n = Name.appendNumber p (Full.newSeq seq cur) ∨ IsLive b.getSeqNo n)
    (fun a ha => ⟨ha, [], by simp, by simp⟩)
    (fun a a' a'' h1 h2 ha => by
      obtain ⟨e1, x1, e2, e3⟩ := h1 ha
      obtain ⟨f1, x2, f2, f3⟩ := h2 e1
      refine ⟨f1, x1 ++ x2, by rw [f2, e2, List.append_assoc], fun d hd => ?_⟩
      rcases List.mem_append.mp hd with hd | hd
      · exact e3 d hd
      · exact f3 d hd) _
    (fun a e a' _ he ha => by
      unfold Full.satisfyOne at he
      simp only [Res.bind_eq_ok, Res.ok.injEq] at he
      obtain ⟨df, _, s1, h1, rfl⟩ := he
      refine ⟨(Full.sendSyncData_core h1).base.trans ha, ?_⟩
      obtain ⟨buf, r, is, h2, h3, h4, h5, h6, _⟩ := Full.sendSyncData_replied h1
      refine ⟨_, by show s1.log = _; rw [h5, List.append_assoc], fun d hd => ?_⟩
      rcases List.mem_append.mp hd with hd | hd
      · obtain ⟨d', hd', e⟩ := List.mem_map.mp hd
        cases e
        refine ⟨_, Full.satisfyContent a.base df.positive (Name.appendNumber p (Full.newSeq seq cur)),
          ⟨_, buf, _, _, segmentData_spec _ _ _, publish_data_mem h3 hd', ?_⟩, Full.mem_satisfyContent _ _ _, fun n hn => ?_⟩
        · obtain ⟨y, e1, e2⟩ := hwf.content_lossless
            (encodeNames (Full.satisfyContent a.base df.positive (Name.appendNumber p (Full.newSeq seq cur))))
          rw [h2, Option.some.injEq] at e1
          rw [e1]; exact e2
        · have found : ∀ n ∈ df.positive.filterMap a.base.biMap.findLeft, IsLive b.getSeqNo n := by
            intro n hn
            obtain ⟨k, _, hk⟩ := List.mem_filterMap.mp hn
            have := BiMap.findLeft_some hk
            rw [ha] at this
            exact (hb.bm _ _ this).2
          unfold Full.satisfyContent at hn
          simp only at hn
          split at hn
          · exact .inr (found n hn)
          · rcases List.mem_append.mp hn with hn | hn
            · exact .inr (found n hn)
            · exact .inl (List.mem_singleton.mp hn)
      · rcases h6 with rfl | ⟨n, _, rfl⟩ <;> simp at hd) h2
  obtain ⟨e1, ext, e2, e3⟩ := this rfl
  rw [e1]
  refine ⟨⟨ext, e2, e3⟩, ?_⟩
  have hmax : b.getSeqNo p = some (max cur (Full.newSeq seq cur)) := by
    rw [Base.getSeqNo, Base.find_updateSeqNo h1, if_pos rfl, hp', Option.map_some]
  constructor
  · rintro ⟨p', x, hx, h0, e⟩
    obtain ⟨rfl, e⟩ := appendNumber_inj' (Full.newSeq_lt _ _) (hb.lt _ _ hx) e
    rw [hmax, Option.some.injEq] at hx
    omega
  · rintro ⟨h0, hle⟩
    exact ⟨p, _, by rw [hmax]; congr 1; omega, h0, rfl⟩

/-- C38, exactly: an attempt outside the wait leaves an Interest with the current IBF outstanding if and only if the last Interest was
sent at least 100 ms before or had another name (or none was sent).  Otherwise it cancels the outstanding one, sends
nothing, and leaves the timers as they are. -/
theorem c38_exact (cfg : Cfg) (s s' : Full) (hw : s.waitOut = false) (h : Full.sendSyncInterest cfg s = .ok s') :
    (Spec.Outstanding cfg s' ↔ ¬ ((∃ t, s.lastSent = some t ∧ s.now < t + 100) ∧ Full.syncName cfg s.base = .ok s.outstanding)) ∧
    (¬ Spec.Outstanding cfg s' → s' = { s with fetcher := s.fetcher.map fun f => { f with active := false } }) := by
  have hrec : s.recentlySent = true ↔ ∃ t, s.lastSent = some t ∧ s.now < t + 100 := by
    unfold Full.recentlySent
    cases s.lastSent with
    | none => simp
    | some t =>
      simp only [MIN_JITTER, Option.some.injEq]
      constructor
      · intro h; have := of_decide_eq_true h; exact ⟨t, rfl, by omega⟩
      · rintro ⟨_, rfl, h⟩; exact decide_eq_true (by omega)
  rcases Full.sendSyncInterest_ok h with ⟨h1, _⟩ | ⟨_, name, hn, ⟨h1, h2, rfl⟩ | ⟨h1, rfl⟩⟩
  · rw [hw] at h1; cases h1
  · refine ⟨⟨?_, ?_⟩, fun _ => rfl⟩
    · rintro ⟨_, _, e⟩
      simp only [Full.stopFetcher] at e
      cases hf : s.fetcher with
      | none => simp [hf] at e
      | some f => simp [hf] at e
    · intro hno
      exact absurd ⟨hrec.mp h1, by rw [h2]; exact hn⟩ hno
  · have ho : Spec.Outstanding cfg { s with
          outstanding := name
          sched := some (s.now + cfg.lifetime / 2 + cfg.jitter s.draws, .renew)
          draws := s.draws + 1
          lastSent := some s.now
          fetcher := some ⟨name, true⟩
          log := s.log ++ [.interest name cfg.lifetime] } := ⟨name, hn, rfl⟩
    refine ⟨⟨fun _ => ?_, fun _ => ho⟩, fun hno => absurd ho hno⟩
    rintro ⟨h3, h4⟩
    rcases h1 with h1 | h1
    · rw [hrec.mpr h3] at h1; cases h1
    · rw [h4, Res.ok.injEq] at hn; exact h1 hn

/-- Non-vacuity: the parked Interest of `c29_false` asks for packet 5; usual sync Interests ask for packet 0. -/
example : segmentAsked segmentInterest.name = 5 ∧ segmentAsked emptyInterest.name = 0 := by decide
/-- Non-vacuity: right after the first Interest an attempt is too early. -/
example : (Full.init sampleCfg).get?.map (fun s => (s.waitOut, s.lastSent, decide (Full.syncName sampleCfg s.base = .ok s.outstanding)))
    = some (false, some 0, true) := by decide +kernel

end PSync
