import Verif.Props.Removed
/-!
Property C110: nothing that is received keeps a producer from publishing, or a consumer from being told.
-/
namespace PSync
open Spec

theorem Part.step_base_same {cfg : Cfg} {s s' : Part} {op : Part.Op} (h : Part.step cfg s op = .ok s')
    (h1 : ∀ p, op ≠ .addUserNode p) (h2 : ∀ p, op ≠ .removeUserNode p) (h3 : ∀ p q, op ≠ .publishName p q) : s'.base = s.base := by
  cases op with
  | addUserNode p => exact absurd rfl (h1 p)
  | removeUserNode p => exact absurd rfl (h2 p)
  | publishName p q => exact absurd rfl (h3 p q)
  | recvInterest i =>
    simp only [Part.step] at h
    split at h
    · exact Part.onHelloInterest_base h
    · split at h
      · exact Part.onSyncInterest_base h
      · cases h; rfl
  | tick t => simp only [Part.step, Res.ok.injEq] at h; subst h; split <;> rfl
  | expire n =>
    simp only [Part.step] at h
    split at h
    · split at h
      · split at h <;> cases h <;> rfl
      · cases h; rfl
    · cases h; rfl
  | fireStore => simp only [Part.step, Res.ok.injEq] at h; subst h; rfl

/-- C110 for partial sync: whatever Interests a producer receives and however much time passes, publishName gives the number
it would have given before. -/
theorem c110_producer (cfg : Cfg) (s s1 t t1 : Part) (hs : Part.Reach cfg s) (ops : List Part.Op)
    (hops : ∀ op ∈ ops, (∀ p, op ≠ .addUserNode p) ∧ (∀ p, op ≠ .removeUserNode p) ∧ ∀ p q, op ≠ .publishName p q)
    (h : Part.run cfg s ops = .ok s1) (p : Name) (seq : Option Nat) (hq : ∀ x, seq = some x → x < 2 ^ 64)
    (h1 : Part.publishName cfg s p seq = .ok t) (h2 : Part.publishName cfg s1 p seq = .ok t1) :
    t1.base.getSeqNo p = t.base.getSeqNo p := by
  have hb : s1.base = s.base :=
    foldRes_inv (P := fun m : Part => m.base = s.base) ops (fun m op m' hop hP hst =>
      (Part.step_base_same hst (hops op hop).1 (hops op hop).2.1 (hops op hop).2.2).trans hP) rfl h
  have hs1 : Part.Reach cfg s1 := by
    obtain ⟨o, i⟩ := hs
    exact ⟨o ++ ops, by rw [Part.run, foldRes_append, ← Part.run, i]; exact h⟩
  obtain ⟨a1, a2, _⟩ := c19_partial_publish cfg s t hs p seq hq h1
  obtain ⟨b1, b2, _⟩ := c19_partial_publish cfg s1 t1 hs1 p seq hq h2
  rw [hb] at b1 b2
  cases hc : s.base.getSeqNo p with
  | none => rw [a1 hc, b1 hc, hb]
  | some x => rw [a2 x hc, b2 x hc]

/-- C110, partial, for full sync: after any events without calls of the application in which no reply carries the largest
number 2^64-1 for `p`, publishName still gives a higher number (missing: that number, `c110_false`). -/
theorem c110_full_partial (cfg : Cfg) (s s1 s2 : Full) (hs : Full.Reach cfg s) (ops : List Full.Op) (hq : ∀ op ∈ ops, op.Quiet)
    (h : Full.run cfg s ops = .ok s1) (p : Name) (x : Nat) (hx : s.base.getSeqNo p = some x) (hx2 : x < 2 ^ 64 - 1)
    (hr : ∀ buf ∈ received cfg s ops, ∀ n ∈ namesIn cfg buf, announced n ≠ some (p, 2 ^ 64 - 1))
    (h2 : Full.publishName cfg s1 p none = .ok s2) :
    ∃ y z, s1.base.getSeqNo p = some y ∧ s2.base.getSeqNo p = some z ∧ x ≤ y ∧ z = y + 1 := by
  obtain ⟨s0, ops0, i1, i2⟩ := hs
  have hs : Full.Reach cfg s := ⟨s0, ops0, i1, i2⟩
  have hs1 : Full.Reach cfg s1 := ⟨s0, ops0 ++ ops, i1, by rw [Full.run, foldRes_append, ← Full.run, i2]; exact h⟩
  obtain ⟨ps, e1, e2⟩ := Full.run_best hq (Full.reach_inv hs) h
  have hy := e2 p
  rw [show s.base.prefixes.find p = some x from hx] at hy
  obtain ⟨y, hy2, hle⟩ := best_ge_old (p := p) (x := x) (ps := ps)
  rw [hy2] at hy
  have hlt : y < 2 ^ 64 := (Full.reach_inv hs1).lt p y hy
  have hne : y ≠ 2 ^ 64 - 1 := by
    rintro rfl
    rcases best_mem p ps (some x) _ hy2 with h3 | h3
    · cases h3; omega
    · have : some (p, 2 ^ 64 - 1) ∈ ((received cfg s ops).flatMap (namesIn cfg)).map announced := by
        rw [e1]; exact List.mem_map_of_mem h3
      obtain ⟨n, h4, h5⟩ := List.mem_map.mp this
      obtain ⟨buf, h6, h7⟩ := List.mem_flatMap.mp h4
      exact hr buf h6 n h7 h5
  refine ⟨y, y + 1, hy, ?_, hle, rfl⟩
  have := (c19_full_publish cfg s1 s2 hs1 p none (by simp) h2).2.1 y hy
  rw [this, publishedSeq, if_pos (by omega)]

/-- The full claim C110. -/
def Spec.NothingSilences : Prop :=
  ∀ (cfg : Cfg) (s s1 s2 : Full) (ops : List Full.Op) (p : Name) (x : Nat), Full.Reach cfg s → (∀ op ∈ ops, op.Quiet) →
    Full.run cfg s ops = .ok s1 → s.base.getSeqNo p = some x → x < 2 ^ 64 - 1 → Full.publishName cfg s1 p none = .ok s2 →
    ∃ y z, s1.base.getSeqNo p = some y ∧ s2.base.getSeqNo p = some z ∧ y < z

/-- C110, what becomes of a member once it has the largest number: no event ever changes it (unless the prefix is
removed), and no publication is reported any more, here or at a consumer. -/
theorem c110_stuck_full (cfg : Cfg) (s s' : Full) (hs : Full.Reach cfg s) (p : Name) (hp : s.base.getSeqNo p = some (2 ^ 64 - 1))
    (ops : List Full.Op) (hrem : ∀ op ∈ ops, ¬ op.Removes p) (h : Full.run cfg s ops = .ok s') :
    s'.base.getSeqNo p = some (2 ^ 64 - 1) ∧ ∃ ext, s'.log = s.log ++ ext ∧ ∀ k, ¬ Reported p k ext := by
  obtain ⟨s0, ops0, i1, i2⟩ := hs
  have hs : Full.Reach cfg s := ⟨s0, ops0, i1, i2⟩
  have hs1 : Full.Reach cfg s' := ⟨s0, ops0 ++ ops, i1, by rw [Full.run, foldRes_append, ← Full.run, i2]; exact h⟩
  obtain ⟨y, hy, hle⟩ := c18_full_monotone cfg s s' ops h p hrem _ hp
  have hlt : y < 2 ^ 64 := (Full.reach_inv hs1).lt p y hy
  obtain rfl : y = 2 ^ 64 - 1 := by omega
  refine ⟨hy, ?_⟩
  obtain ⟨ext, R, e1, e2, e3, _⟩ := c27_ranges_tile cfg s s' hs ops p hrem h
  rw [hp, hy] at e2
  refine ⟨ext, e1, ?_⟩
  rintro k ⟨us, u, k1, k2, k3, k4⟩
  have hm : (u.lowSeq, u.highSeq) ∈ R.map Prod.snd := by
    have : (u.lowSeq, u.highSeq) ∈ notified p ext := mem_notified.mpr ⟨us, u, k1, k2, k3, rfl⟩
    rw [← e3] at this
    obtain ⟨r, hr, e⟩ := List.mem_map.mp this
    exact List.mem_map.mpr ⟨r, (List.mem_filter.mp hr).1, e⟩
  have h2 := c27_exactly_once e2 k
  rw [if_neg (by omega), List.countP_eq_zero] at h2
  exact h2 _ hm (by simpa using k4)

/-- The same for a consumer. -/
theorem c110_stuck_consumer (cfg : CCfg) (s s' : Cons) (hs : Cons.Reach cfg s) (p : Name) (hp : s.getSeqNo p = some (2 ^ 64 - 1))
    (ops : List Cons.Op) (hno : ∀ op ∈ ops, Cons.Call.removeSubscription p ∉ callsIn op) (h : Cons.run cfg s ops = .ok s') :
    s'.getSeqNo p = some (2 ^ 64 - 1) ∧ ∃ ext, s'.log = s.log ++ ext ∧ ∀ k, ¬ Reported p k ext := by
  obtain ⟨s0, ops0, i1, i2⟩ := hs
  have hs : Cons.Reach cfg s := ⟨s0, ops0, i1, i2⟩
  have hs1 : Cons.Reach cfg s' := ⟨s0, ops0 ++ ops, i1, by rw [Cons.run, foldRes_append, ← Cons.run, i2]; exact h⟩
  obtain ⟨ext, y, e1, hy, hle, e2, _⟩ := c46_ranges cfg s s' hs p _ hp ops hno h
  obtain ⟨bf0, _, hi⟩ := hs1.moment.inv
  have hlt : y < 2 ^ 64 := hi.lt p y hy
  obtain rfl : y = 2 ^ 64 - 1 := by omega
  refine ⟨hy, ext, e1, fun k hk => ?_⟩
  have := (e2.reported k).mp hk
  omega

set_option maxRecDepth 100000 in
/-- C110 is false as stated: a reply, which anybody can send since Data is not validated, with the largest number for /a
keeps the owner of /a from publishing. -/
theorem c110_false : ¬ Spec.NothingSilences := by
  intro hall
  have k1 : ((Res.bind (Full.init sampleCfg) fun s => Full.run sampleCfg s [.call (.addUserNode pA), .call (.publishName pA (some 7))]).get?.bind
      fun s => (Full.run sampleCfg s [.complete (encodeNames [pA.appendNumber (2 ^ 64 - 1)]) []]).get?.bind
      fun s1 => (Full.publishName sampleCfg s1 pA none).get?.map
      fun s2 => (s.base.getSeqNo pA, s1.base.getSeqNo pA, s2.base.getSeqNo pA)) =
      some (some 7, some (2 ^ 64 - 1), some (2 ^ 64 - 1)) := by decide +kernel
  cases h0 : (Res.bind (Full.init sampleCfg) fun s => Full.run sampleCfg s [.call (.addUserNode pA), .call (.publishName pA (some 7))]) with
  | ok s =>
    rw [h0] at k1
    simp only [Res.get?, Option.bind_some] at k1
    cases h1 : Full.run sampleCfg s [.complete (encodeNames [pA.appendNumber (2 ^ 64 - 1)]) []] with
    | ok s1 =>
      rw [h1] at k1
      simp only [Option.bind_some] at k1
      cases h2 : Full.publishName sampleCfg s1 pA none with
      | ok s2 =>
        rw [h2] at k1
        simp only [Option.map_some, Option.some.injEq, Prod.mk.injEq] at k1
        rw [Res.bind_eq_ok] at h0
        obtain ⟨s0, i0, i1⟩ := h0
        obtain ⟨y, z, e1, e2, e3⟩ := hall sampleCfg s s1 s2 _ pA 7 ⟨s0, _, i0, i1⟩ (by
          intro op hop
          simp only [List.mem_singleton] at hop
          subst hop
          simp [Full.Op.Quiet]) h1 k1.1 (by decide) h2
        rw [k1.2.1] at e1
        rw [k1.2.2] at e2
        cases e1
        cases e2
        omega
      | _ => rw [h2] at k1; cases k1
    | _ => rw [h1] at k1; cases k1
  | _ => rw [h0] at k1; cases k1

set_option maxRecDepth 100000 in
/-- Non-vacuity: the same with 2^64-2, after which there is one number left. -/
example : ((Res.bind (Full.init sampleCfg) fun s => Full.run sampleCfg s [.call (.addUserNode pA), .call (.publishName pA (some 7)),
      .complete (encodeNames [pA.appendNumber (2 ^ 64 - 2)]) [], .call (.publishName pA none), .call (.publishName pA none)]).get?.map
      fun s => s.base.getSeqNo pA) = some (some (2 ^ 64 - 1)) := by decide +kernel

set_option maxRecDepth 100000 in
/-- Non-vacuity for the consumer: the largest number is reported, nothing after it. -/
example : ((consRun (subscribed ++ [.syncSegment (ibfData (nameOf [115] ++ [SYNC]) .blob []), .syncComplete (encodeNames [pA.appendNumber (2 ^ 64 - 1)]) [],
      .syncSegment (ibfData (nameOf [115] ++ [SYNC]) .blob []), .syncComplete (encodeNames [pA.appendNumber 8]) []])).get?.map fun s =>
      (s.getSeqNo pA, notified pA s.log)) = some (some (2 ^ 64 - 1), [(1, 2 ^ 64 - 1)]) := by decide +kernel

set_option maxRecDepth 100000 in
/-- Non-vacuity for the producer: Interests and time between two publications. -/
example : ((Part.run sampleCfg (Part.init sampleCfg) [.addUserNode pA, .publishName pA none,
      .recvInterest ⟨nameOf [115] ++ [HELLO], 1000, 1⟩, .recvInterest ⟨nameOf [115] ++ [SYNC, ⟨8, [1]⟩], 1000, 2⟩, .tick 50,
      .publishName pA none]).get?.map fun s => s.base.getSeqNo pA) = some (some 2) := by decide +kernel

end PSync
