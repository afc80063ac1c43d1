import Verif.Proofs.PubSubProducer
import Verif.Props.ConsumerWire
import Verif.Spec.PubSub
/-!
What a consumer can fetch from a PartialProducer, and what happens at the consumer during a fetch.
-/
namespace PSync
open Spec

/-- The packets of a completed fetch are nacks, or exactly one recorded reply. -/
theorem fetched_one {pc : Cfg} {s : Part} (hr : Part.Reach pc s) {R : List (Name × Bytes × Nat)} (hR : s.replies <+: R)
    (hbuf : ∀ e ∈ R, e.2.1.length < 2 ^ 64) (hlt : ∀ a < R.length, pc.version a < 2 ^ 64)
    (hvers : ∀ (a b : Nat) (e e' : Name × Bytes × Nat), R[a]? = some e → R[b]? = some e' → e.1 = e'.1 →
      pc.version a = pc.version b → e = e')
    {name : Name} {segs : List Data} {buf : Bytes} (hf : Fetched (fun d => Out.data d ∈ s.log) name segs buf) :
    (∀ d ∈ segs, d.contentType = .nack ∧ ∃ key bf t bs, SyncFields pc key bf t ∧ d.name = key ++ [⟨8, bs⟩] ++ [⟨50, nniBytes 0⟩]) ∨
    ∃ (k : Nat) (e : Name × Bytes × Nat), s.replies[k]? = some e ∧
      segs = segmentData (e.1.appendVersion (pc.version k)) e.2.1 e.2.2 ∧ buf = e.2.1 := by
  obtain ⟨hpk, ⟨v, hv⟩, ⟨d0, h0, hpre⟩, ⟨dl, hdl, hfin⟩, hfew, hcon⟩ := hf
  have src : ∀ d ∈ segs, (d.contentType = .nack ∧ ∃ key bf t bs, SyncFields pc key bf t ∧ d.name = key ++ [⟨8, bs⟩] ++ [⟨50, nniBytes 0⟩]) ∨
      ∃ (k : Nat) (e : Name × Bytes × Nat), s.replies[k]? = some e ∧ d ∈ segmentData (e.1.appendVersion (pc.version k)) e.2.1 e.2.2 := by
    intro d hd
    rcases Part.reach_recorded hr (hpk d hd) with ⟨b, key, bf, t, h1, h2⟩ | h
    · left
      obtain ⟨bs, h3⟩ := nackData_name h2
      refine ⟨?_, key, bf, t, bs, h1, h3⟩
      unfold nackData at h2
      simp only [Res.bind_eq_ok, Res.ok.injEq] at h2
      obtain ⟨c, _, rfl⟩ := h2
      rfl
    · exact .inr h
  have inR : ∀ {k : Nat} {e : Name × Bytes × Nat}, s.replies[k]? = some e → R[k]? = some e := by
    intro k e h
    obtain ⟨t, rfl⟩ := hR
    rw [List.getElem?_append_left (List.getElem?_eq_some_iff.mp h).1]
    exact h
  have blob : ∀ (m : Nat) (d : Data), segs[m]? = some d → ∀ (k : Nat) (e : Name × Bytes × Nat), s.replies[k]? = some e →
      d ∈ segmentData (e.1.appendVersion (pc.version k)) e.2.1 e.2.2 →
      v = e.1.appendVersion (pc.version k) ∧
        (segmentData (e.1.appendVersion (pc.version k)) e.2.1 e.2.2)[m]? = some d := by
    intro m d hm k e he hd
    have hsp := segmentData_spec (e.1.appendVersion (pc.version k)) e.2.1 e.2.2
    obtain ⟨m', hm'⟩ := List.mem_iff_getElem?.mp hd
    have e1 := hv m d hm
    have e2 := hsp.name m' d hm'
    rw [e1] at e2
    have e3 := List.append_inj_left' e2 rfl
    have e4 := (List.append_inj_right' e2 rfl).symm
    simp only [List.cons.injEq, Tlv.mk.injEq, true_and, and_true] at e4
    have l1 := (List.getElem?_eq_some_iff.mp hm).1
    have l2 := (List.getElem?_eq_some_iff.mp hm').1
    have l3 := segmentData_few (e.1.appendVersion (pc.version k)) e.2.1 e.2.2 (hbuf e (List.mem_of_getElem? (inR he)))
    have := nniBytes_inj (x := m') (y := m) (by omega) (by omega) e4
    subst this
    exact ⟨e3, hm'⟩
  by_cases hn : ∀ d ∈ segs, ¬ ∃ (k : Nat) (e : Name × Bytes × Nat), s.replies[k]? = some e ∧
      d ∈ segmentData (e.1.appendVersion (pc.version k)) e.2.1 e.2.2
  · exact .inl fun d hd => (src d hd).resolve_right (hn d hd)
  right
  simp only [not_forall, not_not] at hn
  obtain ⟨d1, hd1, k, e, he, hd1'⟩ := hn
  obtain ⟨m1, hm1⟩ := List.mem_iff_getElem?.mp hd1
  obtain ⟨hve, _⟩ := blob m1 d1 hm1 k e he hd1'
  have klt : ∀ {k e}, R[k]? = some e → k < R.length := fun h => (List.getElem?_eq_some_iff.mp h).1
  have all : ∀ (m : Nat) (d : Data), segs[m]? = some d → (segmentData (e.1.appendVersion (pc.version k)) e.2.1 e.2.2)[m]? = some d := by
    intro m d hm
    rcases src d (List.mem_of_getElem? hm) with ⟨_, key, bf, t, bs, _, h⟩ | ⟨k', e', he', hd'⟩
    · exfalso
      rw [hv m d hm, hve] at h
      have := List.append_inj_left' h rfl
      unfold Name.appendVersion at this
      have := List.append_inj_right' this rfl
      simp [TlvType.version] at this
    · obtain ⟨h1, h2⟩ := blob m d hm k' e' he' hd'
      rw [hve] at h1
      unfold Name.appendVersion at h1
      have h0 := List.append_inj_left' h1 rfl
      have h3 := List.append_inj_right' h1 rfl
      simp only [List.cons.injEq, Tlv.mk.injEq, true_and, and_true] at h3
      have h4 := nniBytes_inj (hlt k (klt (inR he))) (hlt k' (klt (inR he'))) h3
      have h5 := hvers k k' e e' (inR he) (inR he') h0 h4
      subst h5
      rw [h4]
      exact h2
  have hsp := segmentData_spec (e.1.appendVersion (pc.version k)) e.2.1 e.2.2
  have hfew' := segmentData_few (e.1.appendVersion (pc.version k)) e.2.1 e.2.2 (hbuf e (List.mem_of_getElem? (inR he)))
  have hpos : 0 < segs.length := (List.getElem?_eq_some_iff.mp h0).1
  have hlen : segs.length = (segmentData (e.1.appendVersion (pc.version k)) e.2.1 e.2.2).length := by
    obtain ⟨m, hm⟩ := List.mem_iff_getElem?.mp hdl
    have h1 := hsp.final dl (List.mem_of_getElem? (all m dl hm))
    rw [h1] at hfin
    simp only [Option.some.injEq, Tlv.mk.injEq, true_and] at hfin
    have := nniBytes_inj (by have := hsp.nonempty; omega) (by omega) hfin
    have := hsp.nonempty
    omega
  have hsegs : segs = segmentData (e.1.appendVersion (pc.version k)) e.2.1 e.2.2 := by
    apply List.ext_getElem?
    intro m
    cases hm : segs[m]? with
    | some d => exact (all m d hm).symm
    | none =>
      rw [List.getElem?_eq_none_iff] at hm
      exact (List.getElem?_eq_none_iff.mpr (by omega)).symm
  exact ⟨k, e, he, hsegs, by rw [hcon, hsegs]; exact hsp.content⟩

theorem askedUnder_append (pre : Name) (a b : List Out) : askedUnder pre (a ++ b) = askedUnder pre a ++ askedUnder pre b := by
  simp [askedUnder]

theorem askedUnder_hit {pre n : Name} (h : pre <+: n) (lt : Nat) : askedUnder pre [.interest n lt] = [n] := by
  simp [askedUnder, h]

theorem askedUnder_miss {pre n : Name} (h : ¬ pre <+: n) (lt : Nat) : askedUnder pre [.interest n lt] = [] := by
  simp [askedUnder, h]

namespace Cons

/-- What some calls do not change, and what they can only change by sending. -/
structure Went (cfg : CCfg) (s s' : Cons) : Prop where
  iblt : s'.iblt = s.iblt
  sname : s'.syncDataName = s.syncDataName
  hname : s'.helloDataName = s.helloDataName
  kind : s'.contentType = s.contentType
  sync : ∃ ext, askedUnder (cfg.syncPrefix ++ [SYNC]) s'.log = askedUnder (cfg.syncPrefix ++ [SYNC]) s.log ++ ext ∧
    (s'.syncFetcher = some true → s.syncFetcher = some true ∨ ext ≠ [])
  hello : ∃ ext, askedUnder (cfg.syncPrefix ++ [HELLO]) s'.log = askedUnder (cfg.syncPrefix ++ [HELLO]) s.log ++ ext ∧
    (s'.helloFetcher = some true → s.helloFetcher = some true ∨ ext ≠ [])

theorem Went.refl (cfg : CCfg) (s : Cons) : Went cfg s s := ⟨rfl, rfl, rfl, rfl, ⟨[], by simp, .inl⟩, ⟨[], by simp, .inl⟩⟩

theorem Went.trans {cfg : CCfg} {a b c : Cons} (h : Went cfg a b) (h' : Went cfg b c) : Went cfg a c := by
  obtain ⟨i1, s1, n1, k1, ⟨x1, e1, f1⟩, ⟨y1, g1, j1⟩⟩ := h
  obtain ⟨i2, s2, n2, k2, ⟨x2, e2, f2⟩, ⟨y2, g2, j2⟩⟩ := h'
  refine ⟨i2.trans i1, s2.trans s1, n2.trans n1, k2.trans k1, ⟨x1 ++ x2, by rw [e2, e1, List.append_assoc], fun h => ?_⟩,
    ⟨y1 ++ y2, by rw [g2, g1, List.append_assoc], fun h => ?_⟩⟩
  · rcases f2 h with h | h
    · rcases f1 h with h | h
      · exact .inl h
      · exact .inr (by simp [h])
    · exact .inr (by simp [h])
  · rcases j2 h with h | h
    · rcases j1 h with h | h
      · exact .inl h
      · exact .inr (by simp [h])
    · exact .inr (by simp [h])

theorem not_sync_hello (sp : Name) (l : Name) : ¬ (sp ++ [SYNC]) <+: sp ++ [HELLO] ++ l := by
  rw [List.append_assoc, List.prefix_append_right_inj]
  rintro ⟨t, h⟩
  simp only [List.cons_append, List.nil_append, List.cons.injEq] at h
  exact absurd h.1 (by decide)

theorem not_hello_sync (sp : Name) (l : Name) : ¬ (sp ++ [HELLO]) <+: sp ++ [SYNC] ++ l := by
  rw [List.append_assoc, List.prefix_append_right_inj]
  rintro ⟨t, h⟩
  simp only [List.cons_append, List.nil_append, List.cons.injEq] at h
  exact absurd h.1 (by decide)

theorem went_sendHello (cfg : CCfg) (s : Cons) : Went cfg s (s.sendHelloInterest cfg) := by
  have h1 := not_sync_hello cfg.syncPrefix []
  rw [List.append_nil] at h1
  refine ⟨rfl, rfl, rfl, rfl, ⟨[], ?_, .inl⟩, ⟨[cfg.syncPrefix ++ [HELLO]], ?_, fun _ => .inr (by simp)⟩⟩
  · simp only [sendHelloInterest, askedUnder_append, helloPrefix]
    rw [askedUnder_miss h1]
  · simp only [sendHelloInterest, askedUnder_append, helloPrefix]
    rw [askedUnder_hit (List.prefix_refl _)]

theorem went_sendSync {cfg : CCfg} {s s' : Cons} (h : s.sendSyncInterest cfg = .ok s') : Went cfg s s' := by
  obtain ⟨_, cs, _, rfl⟩ := sendSyncInterest_ok h
  refine ⟨rfl, rfl, rfl, rfl, ⟨[cfg.syncPrefix ++ [SYNC] ++ cs ++ s.iblt], ?_, fun _ => .inr (by simp)⟩, ⟨[], ?_, .inl⟩⟩
  · simp only [askedUnder_append, syncPrefixName]
    rw [askedUnder_hit (by rw [List.append_assoc (cfg.syncPrefix ++ [SYNC])]; exact List.prefix_append _ _)]
  · simp only [askedUnder_append, syncPrefixName]
    rw [askedUnder_miss]
    have := not_hello_sync cfg.syncPrefix (cs ++ s.iblt)
    rwa [← List.append_assoc] at this

theorem went_quiet {cfg : CCfg} {s s' : Cons} (h1 : s'.iblt = s.iblt) (h2 : s'.syncDataName = s.syncDataName)
    (h3 : s'.helloDataName = s.helloDataName) (h4 : s'.contentType = s.contentType)
    (h5 : s'.log = s.log ∨ (∃ us, s'.log = s.log ++ [.update us]) ∨ ∃ m, s'.log = s.log ++ [.hello m])
    (h6 : s'.syncFetcher = some true → s.syncFetcher = some true)
    (h7 : s'.helloFetcher = some true → s.helloFetcher = some true) : Went cfg s s' := by
  have : ∀ pre, askedUnder pre s'.log = askedUnder pre s.log ++ [] := by
    intro pre
    rcases h5 with h | ⟨us, h⟩ | ⟨m, h⟩ <;> rw [h] <;> simp [askedUnder]
  exact ⟨h1, h2, h3, h4, ⟨[], this _, fun h => .inl (h6 h)⟩, ⟨[], this _, fun h => .inl (h7 h)⟩⟩

theorem went_update (cfg : CCfg) (s : Cons) (us : List MissingDataInfo) : Went cfg s (s.emit (.update us)) :=
  went_quiet rfl rfl rfl rfl (.inr (.inl ⟨us, rfl⟩)) (fun h => h) (fun h => h)

theorem went_hello (cfg : CCfg) (s : Cons) (m : NMap Nat) : Went cfg s (s.emit (.hello m)) :=
  went_quiet rfl rfl rfl rfl (.inr (.inr ⟨m, rfl⟩)) (fun h => h) (fun h => h)

theorem went_call {cfg : CCfg} {s s' : Cons} {c : Call} (h : call cfg s c = .ok s') : Went cfg s s' := by
  cases c with
  | addSubscription p seq cb =>
    simp only [call, Res.bind_eq_ok, Res.ok.injEq] at h
    obtain ⟨⟨r, s1⟩, h1, rfl⟩ := h
    unfold addSubscription at h1
    split at h1
    · cases h1; exact Went.refl _ _
    · simp only [Res.bind_eq_ok, Res.ok.injEq, Prod.mk.injEq] at h1
      obtain ⟨bf, hbf, _, rfl⟩ := h1
      split
      · exact went_quiet rfl rfl rfl rfl (.inr (.inl ⟨_, rfl⟩)) (fun h => h) (fun h => h)
      · exact went_quiet rfl rfl rfl rfl (.inl rfl) (fun h => h) (fun h => h)
  | removeSubscription p =>
    simp only [call, Res.bind_eq_ok, Res.ok.injEq] at h
    obtain ⟨⟨r, s1⟩, h1, rfl⟩ := h
    rcases removeSubscription_ok h1 with ⟨_, _, rfl⟩ | ⟨hx, _, bf, hbf, rfl⟩
    · exact Went.refl _ _
    · exact went_quiet rfl rfl rfl rfl (.inl rfl) (fun h => h) (fun h => h)
  | sendHello => simp only [call, Res.ok.injEq] at h; subst h; exact went_sendHello cfg s
  | sendSync => exact went_sendSync h
  | stop =>
    simp only [call, Res.ok.injEq] at h
    subst h
    exact went_quiet rfl rfl rfl rfl (.inl rfl) (fun h => by simp [stop] at h) (fun h => by simp [stop] at h)

theorem went_calls {cfg : CCfg} {s s' : Cons} {cs : List Call} (h : foldRes (call cfg) s cs = .ok s') : Went cfg s s' :=
  foldRes_rel (Q := Went cfg) (Went.refl cfg) (fun _ _ _ => Went.trans) cs (fun _ _ _ _ h => went_call h) h

/-- The calls made when a hello content arrives. -/
theorem onHelloData_went {cfg : CCfg} {s s' : Cons} {buf : Bytes} {a1 a2 : List Call}
    (h : onHelloData cfg s buf a1 a2 = .ok s') :
    ∃ st r, StateMsg.wireDecode buf = .ok st ∧ foldRes (helloStep s.subs) (s.prefixes, [], []) st.content = .ok r ∧
      Went cfg { s with iblt := s.helloDataName.drop (s.helloDataName.length - 1), prefixes := r.1 } s' := by
  unfold onHelloData at h
  simp only [Res.bind_eq_ok] at h
  obtain ⟨st, hst, r, hr, s1, h1, h2⟩ := h
  refine ⟨st, r, hst, hr, ?_⟩
  refine (went_hello _ _ r.2.2).trans ((went_calls h1).trans ?_)
  split at h2
  · cases h2; exact Went.refl _ _
  · exact (went_update _ _ r.2.1).trans (went_calls h2)

/-- The calls made when a sync content arrives. -/
theorem onSyncData_went {cfg : CCfg} {s s' : Cons} {buf : Bytes} {a : List Call}
    (h : onSyncData cfg s buf a = .ok s') :
    ∃ st r, StateMsg.wireDecode buf = .ok st ∧ foldRes syncStep (s.prefixes, []) st.content = .ok r ∧
      Went cfg { s with iblt := s.syncDataName.drop (s.syncDataName.length - 1), prefixes := r.1 } s' := by
  unfold onSyncData at h
  simp only [Res.bind_eq_ok] at h
  obtain ⟨st, hst, r, hr, s1, h1, h2⟩ := h
  refine ⟨st, r, hst, hr, Went.trans ?_ (went_sendSync h2)⟩
  split at h1
  · cases h1; exact Went.refl _ _
  · exact (went_update _ _ r.2).trans (went_calls h1)

/-- A sync fetch goes on only if it was going on; then the event was the arrival of one of its packets, or
changed nothing that belongs to it. -/
theorem sync_window {cfg : CCfg} {s s' : Cons} {op : Op} (h : step cfg s op = .ok s') (hf : s'.syncFetcher = some true)
    (hsame : askedUnder (cfg.syncPrefix ++ [SYNC]) s'.log = askedUnder (cfg.syncPrefix ++ [SYNC]) s.log) :
    s.syncFetcher = some true ∧
    ((∃ d, op = .syncSegment d ∧ s'.syncDataName = Name.dropLast d.name 2 ∧ s'.contentType = d.contentType) ∨
     (s'.syncDataName = s.syncDataName ∧ s'.contentType = s.contentType ∧ ∀ d, op = .syncSegment d → d.finalBlock = none)) := by
  have key : ∀ {a : Cons}, Went cfg a s' → askedUnder (cfg.syncPrefix ++ [SYNC]) a.log = askedUnder (cfg.syncPrefix ++ [SYNC]) s.log →
      a.syncFetcher = some true := by
    intro a hw ha
    obtain ⟨ext, h1, h2⟩ := hw.sync
    rw [hsame, ha] at h1
    rcases h2 hf with h | h
    · exact h
    · exact absurd (List.self_eq_append_right.mp h1) h
  cases op with
  | call c =>
    have hw := went_call (show call cfg s c = .ok s' from h)
    exact ⟨by have := key hw rfl; exact this, .inr ⟨hw.sname, hw.kind, fun d hd => by cases hd⟩⟩
  | helloSegment d =>
    simp only [step] at h
    split at h
    · cases h
      split at hf <;> exact ⟨hf, .inr ⟨by split <;> rfl, by split <;> rfl, fun d hd => by cases hd⟩⟩
    · cases h; exact ⟨hf, .inr ⟨rfl, rfl, fun d hd => by cases hd⟩⟩
  | helloComplete buf a1 a2 =>
    simp only [step] at h
    split at h
    · obtain ⟨st, r, _, _, hw⟩ := onHelloData_went h
      exact ⟨by have := key hw rfl; exact this, .inr ⟨hw.sname, hw.kind, fun d hd => by cases hd⟩⟩
    · cases h; exact ⟨hf, .inr ⟨rfl, rfl, fun d hd => by cases hd⟩⟩
  | helloError =>
    simp only [step] at h
    split at h
    · cases h; exact ⟨hf, .inr ⟨rfl, rfl, fun d hd => by cases hd⟩⟩
    · cases h; exact ⟨hf, .inr ⟨rfl, rfl, fun d hd => by cases hd⟩⟩
  | syncSegment d =>
    simp only [step] at h
    split at h
    · rename_i hs
      refine ⟨hs, ?_⟩
      cases hfb : d.finalBlock with
      | none =>
        right
        simp only [hfb, Option.isSome_none, Bool.false_eq_true, if_false, Res.ok.injEq] at h
        refine ⟨?_, ?_, fun d' hd' => by cases hd'; exact hfb⟩
        · rw [← h]; split <;> rfl
        · rw [← h]; split <;> rfl
      | some fb =>
        left
        simp only [hfb, Option.isSome_some, if_true, Res.ok.injEq] at h
        refine ⟨d, rfl, ?_, ?_⟩
        · rw [← h]; split <;> rfl
        · rw [← h]; split <;> rfl
    · rename_i hs
      cases h; exact absurd hf hs
  | syncComplete buf acts =>
    simp only [step] at h
    split at h
    · split at h
      · cases h; simp at hf
      · obtain ⟨st, r, _, _, hw⟩ := onSyncData_went h
        have := key hw rfl
        simp at this
    · rename_i hs
      cases h; exact absurd hf hs
  | syncError t =>
    simp only [step] at h
    split at h
    · split at h
      · have := key (went_sendSync h) rfl
        simp at this
      · cases h; simp at hf
    · rename_i hs
      cases h; exact absurd hf hs
  | tick t =>
    simp only [step, Res.ok.injEq] at h
    subst h
    split at hf <;> exact ⟨hf, .inr ⟨by split <;> rfl, by split <;> rfl, fun d hd => by cases hd⟩⟩
  | fire =>
    simp only [step] at h
    split at h
    · cases h; exact ⟨hf, .inr ⟨rfl, rfl, fun d hd => by cases hd⟩⟩
    · cases h
      exact ⟨hf, .inr ⟨rfl, rfl, fun d hd => by cases hd⟩⟩
    · have hw := went_sendSync h
      exact ⟨by have := key hw rfl; exact this, .inr ⟨hw.sname, hw.kind, fun d hd => by cases hd⟩⟩

/-- The same for a hello fetch. -/
theorem hello_window {cfg : CCfg} {s s' : Cons} {op : Op} (h : step cfg s op = .ok s') (hf : s'.helloFetcher = some true)
    (hsame : askedUnder (cfg.syncPrefix ++ [HELLO]) s'.log = askedUnder (cfg.syncPrefix ++ [HELLO]) s.log) :
    s.helloFetcher = some true ∧
    ((∃ d, op = .helloSegment d ∧ s'.helloDataName = Name.dropLast d.name 2) ∨
     (s'.helloDataName = s.helloDataName ∧ ∀ d, op = .helloSegment d → d.finalBlock = none)) := by
  have key : ∀ {a : Cons}, Went cfg a s' → askedUnder (cfg.syncPrefix ++ [HELLO]) a.log = askedUnder (cfg.syncPrefix ++ [HELLO]) s.log →
      a.helloFetcher = some true := by
    intro a hw ha
    obtain ⟨ext, h1, h2⟩ := hw.hello
    rw [hsame, ha] at h1
    rcases h2 hf with h | h
    · exact h
    · exact absurd (List.self_eq_append_right.mp h1) h
  cases op with
  | call c =>
    have hw := went_call (show call cfg s c = .ok s' from h)
    exact ⟨by have := key hw rfl; exact this, .inr ⟨hw.hname, fun d hd => by cases hd⟩⟩
  | helloSegment d =>
    simp only [step] at h
    split at h
    · rename_i hs
      refine ⟨hs, ?_⟩
      cases hfb : d.finalBlock with
      | none =>
        simp only [hfb, Option.isSome_none, Bool.false_eq_true, if_false, Res.ok.injEq] at h
        subst h
        exact .inr ⟨rfl, fun d' hd' => by cases hd'; exact hfb⟩
      | some fb =>
        simp only [hfb, Option.isSome_some, if_true, Res.ok.injEq] at h
        subst h
        exact .inl ⟨d, rfl, rfl⟩
    · rename_i hs
      cases h; exact absurd hf hs
  | helloComplete buf a1 a2 =>
    simp only [step] at h
    split at h
    · obtain ⟨st, r, _, _, hw⟩ := onHelloData_went h
      have := key hw rfl
      simp at this
    · rename_i hs
      cases h; exact absurd hf hs
  | helloError =>
    simp only [step] at h
    split at h
    · cases h; simp at hf
    · rename_i hs
      cases h; exact absurd hf hs
  | syncSegment d =>
    simp only [step] at h
    split at h
    · simp only [Res.ok.injEq] at h
      obtain ⟨s1, e1, e2, e3, h⟩ : ∃ s1 : Cons, s1.helloFetcher = s.helloFetcher ∧ s1.helloDataName = s.helloDataName ∧
          s1.log = s.log ∧ (if s1.contentType = .nack then s1.sendHelloInterest cfg else s1) = s' :=
        ⟨_, by split <;> rfl, by split <;> rfl, by split <;> rfl, h⟩
      split at h
      · have hw := went_sendHello cfg s1
        rw [h] at hw
        exact ⟨e1 ▸ key hw (by rw [e3]), .inr ⟨hw.hname.trans e2, fun d hd => by cases hd⟩⟩
      · subst h
        exact ⟨e1 ▸ hf, .inr ⟨e2, fun d hd => by cases hd⟩⟩
    · cases h; exact ⟨hf, .inr ⟨rfl, fun d hd => by cases hd⟩⟩
  | syncComplete buf acts =>
    simp only [step] at h
    split at h
    · split at h
      · cases h; exact ⟨hf, .inr ⟨rfl, fun d hd => by cases hd⟩⟩
      · obtain ⟨st, r, _, _, hw⟩ := onSyncData_went h
        exact ⟨by have := key hw rfl; exact this, .inr ⟨hw.hname, fun d hd => by cases hd⟩⟩
    · cases h; exact ⟨hf, .inr ⟨rfl, fun d hd => by cases hd⟩⟩
  | syncError t =>
    simp only [step] at h
    split at h
    · split at h
      · have hw := went_sendSync h
        exact ⟨by have := key hw rfl; exact this, .inr ⟨hw.hname, fun d hd => by cases hd⟩⟩
      · cases h; exact ⟨hf, .inr ⟨rfl, fun d hd => by cases hd⟩⟩
    · cases h; exact ⟨hf, .inr ⟨rfl, fun d hd => by cases hd⟩⟩
  | tick t =>
    simp only [step, Res.ok.injEq] at h
    subst h
    split at hf <;> exact ⟨hf, .inr ⟨by split <;> rfl, fun d hd => by cases hd⟩⟩
  | fire =>
    simp only [step] at h
    split at h
    · cases h; exact ⟨hf, .inr ⟨rfl, fun d hd => by cases hd⟩⟩
    · rename_i ts _
      simp only [Res.ok.injEq] at h
      have hw := went_sendHello cfg { s with timers := ts }
      rw [h] at hw
      exact ⟨by have := key hw rfl; exact this, .inr ⟨hw.hname, fun d hd => by cases hd⟩⟩
    · have hw := went_sendSync h
      exact ⟨by have := key hw rfl; exact this, .inr ⟨hw.hname, fun d hd => by cases hd⟩⟩

/-- The Interests sent under a prefix only accumulate. -/
theorem step_asked {cfg : CCfg} {s s' : Cons} {op : Op} (h : step cfg s op = .ok s') (pre : Name) :
    askedUnder pre s.log <+: askedUnder pre s'.log := by
  obtain ⟨ext, e⟩ := (step_micros h).log
  rw [e, askedUnder_append]
  exact List.prefix_append _ _

end Cons
end PSync
