import Verif.Spec.Register
import Verif.Props.PartialSync
/-!
C103: what happens before the forwarder has accepted the sync prefix.
-/
namespace PSync
open Spec

/-! ### A PartialProducer is a registered PartialProducer to which fewer Interests came -/

theorem RegPart.step_other {cfg : Cfg} {s : RegPart} {o : Part.Op} (hn : ¬ IsArrival (.op o)) :
    RegPart.step cfg s (.op o) = Res.bind (Part.step cfg s.prod o) fun p => .ok { s with prod := p } := by
  cases o <;> first | rfl | exact absurd trivial hn

/-- C103: the state of a PartialProducer is that of one registered from the start that received the Interests after the success only, and
everything else. -/
theorem c103_same (cfg : Cfg) (ops : List (RegOp Part.Op)) : ∀ (s s' : RegPart), RegPart.run cfg s ops = .ok s' →
    ∃ os, Heard s.ready ops os ∧ Part.run cfg s.prod os = .ok s'.prod := by
  induction ops with
  | nil =>
    intro s s' h
    cases h
    exact ⟨[], .nil _, rfl⟩
  | cons op ops ih =>
    intro s s' h
    obtain ⟨m, h1, h2⟩ := Res.bind_eq_ok.1 (show Res.bind (RegPart.step cfg s op) (fun m => RegPart.run cfg m ops) = .ok s' from h)
    obtain ⟨os, ho, hr⟩ := ih m s' h2
    have through : ∀ o, Res.bind (Part.step cfg s.prod o) (fun p => Res.ok { s with prod := p }) = .ok m →
        m.ready = s.ready ∧ Part.run cfg s.prod (o :: os) = .ok s'.prod := by
      intro o hb
      obtain ⟨p, hp, he⟩ := Res.bind_eq_ok.1 hb
      cases he
      exact ⟨rfl, by show Res.bind _ _ = _; rw [hp]; exact hr⟩
    cases op with
    | succeeded => cases h1; exact ⟨os, .succeeded ho, hr⟩
    | failed =>
      simp only [RegPart.step] at h1
      split at h1
      · cases h1; exact ⟨os, .failed ho, hr⟩
      · cases h1
    | op o =>
      by_cases hn : IsArrival (.op o)
      · cases o <;> first | exact absurd hn id | skip
        rename_i i
        simp only [RegPart.step] at h1
        split at h1
        · rename_i hready
          obtain ⟨e, hp⟩ := through _ h1
          rw [e, hready] at ho
          exact ⟨_, hready ▸ .arrived i ho, hp⟩
        · rename_i hready
          cases h1
          have hf : s.ready = false := by simpa using hready
          rw [hf] at ho ⊢
          exact ⟨_, .dropped i ho, hr⟩
      · rw [RegPart.step_other hn] at h1
        obtain ⟨e, hp⟩ := through _ h1
        rw [e] at ho
        exact ⟨_, .other o hn ho, hp⟩

/-- C103: so everything that holds in all states of a producer registered from the start holds here too. -/
theorem c103_reach (cfg : Cfg) (s : RegPart) (h : RegPart.Reach cfg s) : Part.Reach cfg s.prod := by
  obtain ⟨ops, h⟩ := h
  obtain ⟨os, _, hr⟩ := c103_same cfg ops _ _ h
  exact ⟨os, hr⟩

/-- C103: and every such state is reached. -/
theorem c103_all (cfg : Cfg) (p : Part) (h : Part.Reach cfg p) : RegPart.Reach cfg ⟨p, true⟩ := by
  obtain ⟨os, h⟩ := h
  refine ⟨.succeeded :: os.map .op, ?_⟩
  show foldRes (RegPart.step cfg) ⟨Part.init cfg, true⟩ (os.map RegOp.op) = _
  generalize Part.init cfg = q at h ⊢
  induction os generalizing q with
  | nil => cases h; rfl
  | cons o os ih =>
    obtain ⟨m, h1, h2⟩ := Res.bind_eq_ok.1 (show Res.bind (Part.step cfg q o) (fun m => Part.run cfg m os) = .ok p from h)
    have e : RegPart.step cfg ⟨q, true⟩ (.op o) = .ok ⟨m, true⟩ := by
      cases o <;> · simp only [RegPart.step, if_true]; rw [h1]; rfl
    show Res.bind (RegPart.step cfg ⟨q, true⟩ (.op o)) _ = _
    rw [e]
    exact ih m h2

/-! ### Before the success -/

/-- A producer that has answered nothing. -/
def Part.Idle (p : Part) : Prop := p.log = [] ∧ p.pending = [] ∧ p.replies = [] ∧ p.pub = SegPub.empty

theorem Part.idle_step {cfg : Cfg} {p p' : Part} {o : Part.Op} (hn : ¬ IsArrival (.op o)) (hi : p.Idle)
    (h : Part.step cfg p o = .ok p') : p'.Idle := by
  obtain ⟨h1, h2, h3, h4⟩ := hi
  cases o with
  | addUserNode q => cases h; exact ⟨h1, h2, h3, h4⟩
  | removeUserNode q =>
    obtain ⟨b, _, he⟩ := Res.bind_eq_ok.1 h
    cases he
    exact ⟨h1, h2, h3, h4⟩
  | publishName q seq =>
    simp only [Part.step, Part.publishName] at h
    split at h
    · cases h; exact ⟨h1, h2, h3, h4⟩
    · obtain ⟨b, _, he⟩ := Res.bind_eq_ok.1 h
      simp only [Part.satisfyPending, h2] at he
      cases he
      exact ⟨h1, rfl, h3, h4⟩
  | recvInterest i => exact absurd trivial hn
  | tick t =>
    simp only [Part.step, Res.ok.injEq] at h
    subst h
    split <;> exact ⟨h1, h2, h3, h4⟩
  | expire n =>
    simp only [Part.step, h2] at h
    cases h
    exact ⟨h1, h2, h3, h4⟩
  | fireStore =>
    simp only [Part.step, Res.ok.injEq] at h
    subst h
    refine ⟨h1, h2, h3, ?_⟩
    show p.pub.fire p.now = _
    rw [h4]
    rfl

theorem RegPart.idle {cfg : Cfg} {s : RegPart} (h : RegPart.Reach cfg s) (hw : s.ready = false) : s.prod.Idle := by
  obtain ⟨ops, h⟩ := h
  have key : ∀ (ops : List (RegOp Part.Op)) (s s' : RegPart), RegPart.run cfg s ops = .ok s' → (s.ready = false → s.prod.Idle) →
      s'.ready = false → s'.prod.Idle := by
    intro ops
    induction ops with
    | nil => intro s s' h hi; cases h; exact hi
    | cons op ops ih =>
      intro s s' h hi
      obtain ⟨m, h1, h2⟩ := Res.bind_eq_ok.1 (show Res.bind (RegPart.step cfg s op) (fun m => RegPart.run cfg m ops) = .ok s' from h)
      refine ih m s' h2 ?_
      cases op with
      | succeeded => cases h1; intro hf; cases hf
      | failed =>
        simp only [RegPart.step] at h1
        split at h1
        · cases h1; exact hi
        · cases h1
      | op o =>
        by_cases hn : IsArrival (.op o)
        · cases o <;> first | exact absurd hn id | skip
          simp only [RegPart.step] at h1
          split at h1
          · rename_i hready
            obtain ⟨p, _, he⟩ := Res.bind_eq_ok.1 h1
            cases he
            intro hf
            exact absurd (hready.symm.trans hf) (by simp)
          · cases h1; exact hi
        · rw [RegPart.step_other hn] at h1
          obtain ⟨p, hp, he⟩ := Res.bind_eq_ok.1 h1
          cases he
          intro hf
          exact Part.idle_step hn (hi hf) hp
  exact key ops _ _ h (fun _ => ⟨rfl, rfl, rfl, rfl⟩) hw

/-- C103: before the success a PartialProducer sends nothing, whatever arrives, and no Interest is kept for later. -/
theorem c103_silent (cfg : Cfg) (s : RegPart) (h : RegPart.Reach cfg s) (hw : s.ready = false) :
    s.prod.log = [] ∧ s.prod.pending = [] ∧ ∀ i, RegPart.step cfg s (.op (.recvInterest i)) = .ok s := by
  obtain ⟨h1, h2, _⟩ := RegPart.idle h hw
  exact ⟨h1, h2, fun i => by simp [RegPart.step, hw]⟩

/-- C103: the first hello Interest after the success is answered with a listing of every prefix with its number, those published before the
success included. -/
theorem c103_hello (cfg : Cfg) (s s' : RegPart) (h : RegPart.Reach cfg s) (hw : s.ready = false) (i : Interest)
    (hp : (cfg.syncPrefix ++ [HELLO]) <+: i.name) (hh : IsHello i.name)
    (hr : RegPart.run cfg s [.succeeded, .op (.recvInterest i)] = .ok s') :
    ∃ c content ds, s.prod.base.iblt.toComponent cfg.ibltCodec = .ok c ∧
      content.Nodup ∧ (∀ n, n ∈ content ↔ ∃ p x, s.prod.base.getSeqNo p = some x ∧ n = Name.appendNumber p x) ∧
      SentFor i.name (cfg.syncPrefix ++ [HELLO, c]) (encodeNames content) cfg.helloFreshness ds ∧
      s'.prod.log = ds.map Out.data ∧ s'.prod.base = s.prod.base := by
  obtain ⟨p, h1, h2⟩ := Res.bind_eq_ok.1 (show Res.bind (Res.bind (Part.step cfg s.prod (.recvInterest i)) fun p => .ok ⟨p, true⟩)
    (fun m => RegPart.run cfg m []) = .ok s' from hr)
  obtain ⟨q, h3, h4⟩ := Res.bind_eq_ok.1 h1
  cases h4
  cases h2
  obtain ⟨i1, _, _, i4⟩ := RegPart.idle h hw
  obtain ⟨c, content, ds, e1, e2, e3, e4, e5⟩ := c44_hello_reply cfg s.prod q (c103_reach cfg s h) i hp hh (by rw [i4]; rfl) h3
  refine ⟨c, content, ds, e1, e2, e3, e4, ?_, ?_⟩
  · rw [e5, i1]; rfl
  · rw [e5]

/-- C103: if the forwarder refuses the prefix, an exception leaves the event loop, for both kinds of producer. -/
theorem c103_refused (cfg : Cfg) (s : RegPart) (f : RegFull) (hs : s.ready = false) (hf : f.ready = false) :
    RegPart.step cfg s .failed = .throw .producer ∧ RegFull.step cfg f .failed = .throw .producer := by
  simp [RegPart.step, RegFull.step, hs, hf]

/-- C103: a full-sync node does not wait: its states are those of a node registered from the start, before the success too. -/
theorem c103_full (cfg : Cfg) (n : Full) (r : Bool) : RegFull.Reach cfg ⟨n, r⟩ ↔ Full.Reach cfg n := by
  constructor
  · rintro ⟨s0, ops, h0, h⟩
    obtain ⟨n0, h1, h2⟩ := Res.bind_eq_ok.1 h0
    cases h2
    have key : ∀ (ops : List (RegOp Full.Op)) (s s' : RegFull), RegFull.run cfg s ops = .ok s' →
        ∃ os, Full.run cfg s.node os = .ok s'.node := by
      intro ops
      induction ops with
      | nil => intro s s' h; cases h; exact ⟨[], rfl⟩
      | cons op ops ih =>
        intro s s' h
        obtain ⟨m, h1, h2⟩ := Res.bind_eq_ok.1 (show Res.bind (RegFull.step cfg s op) (fun m => RegFull.run cfg m ops) = .ok s' from h)
        obtain ⟨os, hr⟩ := ih m s' h2
        cases op with
        | succeeded => cases h1; exact ⟨os, hr⟩
        | failed =>
          simp only [RegFull.step] at h1
          split at h1
          · cases h1; exact ⟨os, hr⟩
          · cases h1
        | op o =>
          obtain ⟨p, hp, he⟩ := Res.bind_eq_ok.1 h1
          cases he
          exact ⟨o :: os, by show Res.bind _ _ = _; rw [hp]; exact hr⟩
    obtain ⟨os, hr⟩ := key ops _ _ h
    exact ⟨n0, os, h1, hr⟩
  · rintro ⟨n0, os, h0, h⟩
    have key : ∀ (os : List Full.Op) (q : Full), Full.run cfg q os = .ok n →
        RegFull.run cfg ⟨q, r⟩ (os.map .op) = .ok ⟨n, r⟩ := by
      intro os
      induction os with
      | nil => intro q h; cases h; rfl
      | cons o os ih =>
        intro q h
        obtain ⟨m, h1, h2⟩ := Res.bind_eq_ok.1 (show Res.bind (Full.step cfg q o) (fun m => Full.run cfg m os) = .ok n from h)
        show Res.bind (Res.bind (Full.step cfg q o) _) _ = _
        rw [h1]
        exact ih m h2
    refine ⟨⟨n0, false⟩, (if r then [.succeeded] else []) ++ os.map .op, by rw [RegFull.init, h0]; rfl, ?_⟩
    cases r
    · exact key os n0 h
    · exact key os n0 h

/-- Non-vacuity for C103: the sample producer publishes before the success; a hello Interest before it is dropped, one after it is answered,
and the number published before is listed. -/
example : ∃ s s' : RegPart, RegPart.Reach sampleCfg s ∧ s.ready = false ∧ s.prod.base.getSeqNo pA = some 1 ∧
    (sampleCfg.syncPrefix ++ [HELLO]) <+: sampleCfg.syncPrefix ++ [HELLO] ∧ IsHello (sampleCfg.syncPrefix ++ [HELLO]) ∧
    RegPart.run sampleCfg s [.succeeded, .op (.recvInterest ⟨sampleCfg.syncPrefix ++ [HELLO], 1000, 5⟩)] = .ok s' ∧ s'.prod.log.length = 1 := by
  have h : (RegPart.run sampleCfg (RegPart.init sampleCfg) [.op (.addUserNode pA), .op (.publishName pA none),
      .op (.recvInterest ⟨sampleCfg.syncPrefix ++ [HELLO], 1000, 5⟩)]).get?.map
      (fun s => (s.ready, s.prod.base.getSeqNo pA, (RegPart.run sampleCfg s [.succeeded,
        .op (.recvInterest ⟨sampleCfg.syncPrefix ++ [HELLO], 1000, 5⟩)]).get?.map fun s' => s'.prod.log.length)) =
      some (false, some 1, some 1) := by decide +kernel
  obtain ⟨s, h1, h2⟩ := Res.of_get? h
  simp only [Prod.mk.injEq] at h2
  obtain ⟨h2, h3, h4⟩ := h2
  obtain ⟨s', h5, h6⟩ := Res.of_get? h4
  exact ⟨s, s', ⟨_, h1⟩, h2, h3, List.prefix_refl _, ⟨_, .inl rfl⟩, h5, h6⟩

end PSync
