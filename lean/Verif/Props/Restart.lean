import Verif.Props.Consumer
import Verif.Props.FullMerge
import Verif.Props.ProducerBase
import Verif.Props.ConsumerWire
import Verif.Proofs.PubSub
/-!
Property C108: publications after a restart.
-/
namespace PSync
open Spec

/-- The update callbacks in `log` include number `k` of `p`. -/
def Spec.Reported (p : Name) (k : Nat) (log : List Out) : Prop :=
  ∃ us u, Out.update us ∈ log ∧ u ∈ us ∧ u.pfx = p ∧ u.lowSeq ≤ k ∧ k ≤ u.highSeq

theorem mem_notified {p : Name} {r : Nat × Nat} : ∀ {log : List Out},
    r ∈ notified p log ↔ ∃ us u, Out.update us ∈ log ∧ u ∈ us ∧ u.pfx = p ∧ r = (u.lowSeq, u.highSeq)
  | [] => by simp [notified]
  | o :: log => by
    have ih := mem_notified (p := p) (r := r) (log := log)
    cases o with
    | update us =>
      simp only [notified, List.mem_append, ih, List.mem_map, List.mem_filter, decide_eq_true_eq, List.mem_cons]
      constructor
      · rintro (⟨u, ⟨h1, h2⟩, h3⟩ | ⟨us', u, h1, h2⟩)
        · exact ⟨us, u, Or.inl rfl, h1, h2, h3.symm⟩
        · exact ⟨us', u, Or.inr h1, h2⟩
      · rintro ⟨us', u, h1 | h1, h2, h3, h4⟩
        · cases h1; exact Or.inl ⟨u, ⟨h2, h3⟩, h4.symm⟩
        · exact Or.inr ⟨us', u, h1, h2, h3, h4⟩
    | _ => simp [notified, ih]

/-- What tiling says about a single number. -/
theorem Spec.Tiles.reported {a b : Nat} {p : Name} {log : List Out} (h : Tiles a (notified p log) b) (k : Nat) :
    Reported p k log ↔ a < k ∧ k ≤ b := by
  have h1 := c27_exactly_once h k
  have h2 : Reported p k log ↔ ∃ r ∈ notified p log, r.1 ≤ k ∧ k ≤ r.2 := by
    constructor
    · rintro ⟨us, u, h1, h2, h3, h4⟩
      exact ⟨_, mem_notified.mpr ⟨us, u, h1, h2, h3, rfl⟩, h4⟩
    · rintro ⟨r, hr, h4⟩
      obtain ⟨us, u, h1, h2, h3, rfl⟩ := mem_notified.mp hr
      exact ⟨us, u, h1, h2, h3, h4⟩
  rw [h2]
  constructor
  · rintro ⟨r, hr, h4⟩
    by_contra hc
    rw [if_neg hc, List.countP_eq_zero] at h1
    exact h1 r hr (by simpa using h4)
  · intro hc
    rw [if_pos hc] at h1
    obtain ⟨r, hr, h4⟩ := List.countP_pos_iff.mp (show 0 < List.countP _ _ by rw [h1]; exact Nat.one_pos)
    exact ⟨r, hr, by simpa using h4⟩

theorem Spec.IsMaxOf.ge_iff {p : Name} {old new : Option Nat} {ps : List (Name × Nat)} (h : IsMaxOf p old ps new) (k : Nat)
    (hk : old.getD 0 < k) : k ≤ new.getD 0 ↔ ∃ y, k ≤ y ∧ (p, y) ∈ ps := by
  cases new with
  | none =>
    simp only [Option.getD_none]
    exact ⟨fun h => by omega, fun ⟨y, _, hy⟩ => absurd hy (h.2 y)⟩
  | some z =>
    obtain ⟨_, h2, h3⟩ := h
    simp only [Option.getD_some]
    constructor
    · intro hz
      rcases h3 with h3 | h3
      · rw [h3] at hk; simp at hk; omega
      · exact ⟨z, hz, h3⟩
    · rintro ⟨y, h4, h5⟩
      exact le_trans h4 (h2 y h5)

/-- C108, what a full-sync node reports: when it has processed a reply, the numbers of `p` it has reported for it are
those above its own number for `p` (zero if it knows none) up to the largest one in the reply.  So the
numbers of a restarted producer are reported exactly when they are above what the node has. -/
theorem c108_full_reported (cfg : Cfg) (s s' : Full) (hs : Full.Reach cfg s) (f : Fetcher) (hf : s.fetcher = some f)
    (ha : f.active = true) (buf : Bytes) (h : Full.step cfg s (.complete buf []) = .ok s') (p : Name) :
    ∃ ext, s'.log = s.log ++ ext ∧ ∀ k, Reported p k ext ↔
      (s.base.getSeqNo p).getD 0 < k ∧ ∃ y n, k ≤ y ∧ n ∈ namesIn cfg buf ∧ announced n = some (p, y) := by
  obtain ⟨ext, R, h1, h2, h3, h4⟩ := c27_ranges_tile cfg s s' hs [.complete buf []] p
    (by simp [Full.Op.Removes]) (by simp only [Full.run, foldRes, h, Res.ok_bind])
  have hall : ∀ e ∈ R, e.1 = true := by
    rcases h4 with ⟨op, ho, hp⟩ | h
    · simp only [List.mem_singleton] at ho
      subst ho
      simp [Full.Op.Publishes] at hp
    · exact h
  rw [List.filter_eq_self.mpr hall] at h3
  rw [h3] at h2
  obtain ⟨ps, b, e1, e2, e3, _⟩ := c26_merge_max cfg s s' hs f hf ha buf [] h
  have hb := e2 p
  rw [← e3 rfl] at hb
  refine ⟨ext, h1, fun k => ?_⟩
  rw [h2.reported]
  have hm : ∀ y, (p, y) ∈ ps ↔ ∃ n ∈ namesIn cfg buf, announced n = some (p, y) := fun y => by
    have : (p, y) ∈ ps ↔ some (p, y) ∈ (namesIn cfg buf).map announced := by rw [e1]; simp
    rw [this, List.mem_map]
  refine and_congr_right fun hk => ?_
  rw [hb.ge_iff k hk]
  constructor
  · rintro ⟨y, h5, h6⟩
    obtain ⟨n, h7, h8⟩ := (hm y).mp h6
    exact ⟨y, n, h5, h7, h8⟩
  · rintro ⟨y, n, h5, h7, h8⟩
    exact ⟨y, h5, (hm y).mpr ⟨n, h7, h8⟩⟩

/-- C108, the same for a consumer and sync replies. -/
theorem c108_consumer_reported (cfg : CCfg) (s s' : Cons) (hs : Cons.Reach cfg s) (hf : s.syncFetcher = some true)
    (hb : s.contentType = .blob) (buf : Bytes) (h : Cons.step cfg s (.syncComplete buf []) = .ok s') (p : Name) :
    ∃ ext, s'.log = s.log ++ ext ∧ ∀ k, Reported p k ext ↔
      (s.getSeqNo p).getD 0 < k ∧ ∃ y, k ≤ y ∧ (p, y) ∈ announcements buf := by
  obtain ⟨ext, h1, h2⟩ := c46_ranges_new cfg s s' hs p [.syncComplete buf []]
    (by intro op ho c hc; simp only [List.mem_singleton] at ho; subst ho; simp [callsIn] at hc)
    (by simp only [Cons.run, foldRes, h, Res.ok_bind])
  have h3 := c46_sync_merge cfg s s' buf [] hf hb p (by simp) h
  refine ⟨ext, h1, fun k => ?_⟩
  rw [h2.reported, h3]
  exact and_congr_right fun hk => (best_isMax p _ _).ge_iff k hk

/-- C108, partial: a member that has processed a reply with number `x` of `p` (its own, of its previous life, say) and
does not remove `p` afterwards publishes a number above `x`, as long as there is one. -/
theorem c108_resumes_partial (cfg : Cfg) (s s1 s2 s3 : Full) (hs : Full.Reach cfg s) (f : Fetcher) (hf : s.fetcher = some f)
    (ha : f.active = true) (buf : Bytes) (p n : Name) (x z : Nat) (hn : n ∈ namesIn cfg buf) (hx : announced n = some (p, x))
    (h1 : Full.step cfg s (.complete buf []) = .ok s1) (ops : List Full.Op) (hrem : ∀ op ∈ ops, ¬ op.Removes p)
    (h2 : Full.run cfg s1 ops = .ok s2) (hz : s2.base.getSeqNo p = some z) (hz2 : z + 1 < 2 ^ 64)
    (h3 : Full.publishName cfg s2 p none = .ok s3) :
    ∃ y, s3.base.getSeqNo p = some y ∧ x < y := by
  obtain ⟨ps, b, e1, e2, e3, _⟩ := c26_merge_max cfg s s1 hs f hf ha buf [] h1
  have hb := e2 p
  rw [← e3 rfl] at hb
  have hp : (p, x) ∈ ps := by
    have : some (p, x) ∈ (namesIn cfg buf).map announced := List.mem_map.mpr ⟨n, hn, hx⟩
    rw [e1] at this
    simpa using this
  obtain ⟨w, hw, hxw⟩ : ∃ w, s1.base.getSeqNo p = some w ∧ x ≤ w := by
    cases hc : s1.base.getSeqNo p with
    | none => rw [hc] at hb; exact absurd hp (hb.2 x)
    | some w => rw [hc] at hb; exact ⟨w, rfl, hb.2.1 x hp⟩
  obtain ⟨y, hy, hwy⟩ := c18_full_monotone cfg s1 s2 ops h2 p hrem w hw
  rw [hz] at hy
  cases hy
  obtain ⟨s0, ops0, i1, i2⟩ := hs
  have hs2 : Full.Reach cfg s2 := ⟨s0, ops0 ++ .complete buf [] :: ops, i1, by
    rw [Full.run, foldRes_append, ← Full.run, i2, Res.ok_bind]
    simp only [foldRes, h1, Res.ok_bind]
    exact h2⟩
  have h4 := (c19_full_publish cfg s2 s3 hs2 p none (by simp) h3).2.1 z hz
  refine ⟨_, h4, ?_⟩
  simp only [publishedSeq, if_pos hz2]
  omega

/-- The full claim C108: `old` is a member that published `p` and was restarted, `new` is the restarted one, `r` another
member that knows the number `old` had; a reply to `r` carries the number `new` has.  Then `r` reports it. -/
def Spec.HeardAgain : Prop :=
  ∀ (cfg : Cfg) (old new r r' : Full) (f : Fetcher) (buf : Bytes) (p n : Name) (y : Nat), Full.Reach cfg old → Full.Reach cfg new →
    Full.Reach cfg r → r.base.getSeqNo p = old.base.getSeqNo p → new.base.getSeqNo p = some y → 1 ≤ y → r.fetcher = some f →
    f.active = true → n ∈ namesIn cfg buf → announced n = some (p, y) → Full.step cfg r (.complete buf []) = .ok r' →
    ∃ ext, r'.log = r.log ++ ext ∧ Reported p y ext

/-- C108, partial: it does if the number of the restarted producer is above the one of the previous life (missing: the
other numbers, which `r` ignores, `c108_full_reported`). -/
theorem c108_heard_partial (cfg : Cfg) (old r r' : Full) (f : Fetcher) (buf : Bytes) (p n : Name) (x y : Nat)
    (hr : Full.Reach cfg r) (hx : old.base.getSeqNo p = some x) (h1 : r.base.getSeqNo p = old.base.getSeqNo p)
    (hxy : x < y) (hf : r.fetcher = some f) (ha : f.active = true) (hn : n ∈ namesIn cfg buf)
    (he : announced n = some (p, y)) (h : Full.step cfg r (.complete buf []) = .ok r') :
    ∃ ext, r'.log = r.log ++ ext ∧ Reported p y ext := by
  obtain ⟨ext, e1, e2⟩ := c108_full_reported cfg r r' hr f hf ha buf h p
  refine ⟨ext, e1, (e2 y).mpr ⟨?_, y, n, le_refl _, hn, he⟩⟩
  rw [h1, hx]
  exact hxy

/-- A member that has heard of number 7 of /a and waits for the next reply. -/
def heardSeven : List Full.Op :=
  [.complete (encodeNames [pA.appendNumber 7]) [], .tick 101, .fireSync]

set_option maxRecDepth 100000 in
/-- C108 is false as stated: the restarted producer starts at 1 again, and a member that has 7 ignores that. -/
theorem c108_false : ¬ Spec.HeardAgain := by
  intro hall
  have k1 : ((Res.bind (Full.init sampleCfg) fun s => Full.run sampleCfg s
      [.call (.addUserNode pA), .call (.publishName pA (some 7))]).get?.map fun s => s.base.getSeqNo pA) = some (some 7) := by
    decide +kernel
  have k2 : ((Res.bind (Full.init sampleCfg) fun s => Full.run sampleCfg s
      [.call (.addUserNode pA), .call (.publishName pA none)]).get?.map fun s => s.base.getSeqNo pA) = some (some 1) := by
    decide +kernel
  have k3 : ((Res.bind (Full.init sampleCfg) fun s => Full.run sampleCfg s heardSeven).get?.map fun s =>
      (s.base.getSeqNo pA, s.fetcher.map Fetcher.active,
        (Full.step sampleCfg s (.complete (encodeNames [pA.appendNumber 1]) [])).get?.isSome)) =
      some (some 7, some true, true) := by decide +kernel
  have reach : ∀ {ops : List Full.Op} {s : Full}, (Res.bind (Full.init sampleCfg) fun s => Full.run sampleCfg s ops) = .ok s →
      Full.Reach sampleCfg s := by
    intro ops s h
    rw [Res.bind_eq_ok] at h
    obtain ⟨s0, h0, h1⟩ := h
    exact ⟨s0, ops, h0, h1⟩
  obtain ⟨old, o1, o2⟩ := Res.of_get? k1
  obtain ⟨new, n1, n2⟩ := Res.of_get? k2
  obtain ⟨r, r1, r2⟩ := Res.of_get? k3
  simp only [Prod.mk.injEq, Option.map_eq_some_iff] at r2
  obtain ⟨r2, ⟨f, hf, ha⟩, r4⟩ := r2
  obtain ⟨r', hr'⟩ : ∃ r', Full.step sampleCfg r (.complete (encodeNames [pA.appendNumber 1]) []) = .ok r' := by
    cases hc : Full.step sampleCfg r (.complete (encodeNames [pA.appendNumber 1]) []) with
    | ok r' => exact ⟨r', rfl⟩
    | _ => rw [hc] at r4; simp [Res.get?] at r4
  have names : namesIn sampleCfg (encodeNames [pA.appendNumber 1]) = [pA.appendNumber 1] := by decide +kernel
  have ann : announced (pA.appendNumber 1) = some (pA, 1) := by decide +kernel
  obtain ⟨ext, e1, e2⟩ := hall sampleCfg old new r r' f _ pA (pA.appendNumber 1) 1 (reach o1) (reach n1) (reach r1)
    (r2.trans o2.symm) n2 (le_refl _) hf ha (by rw [names]; simp) ann hr'
  obtain ⟨ext', e3, e4⟩ := c108_full_reported sampleCfg r r' (reach r1) f hf ha _ hr' pA
  have : ext = ext' := List.append_cancel_left (e1.symm.trans e3)
  subst this
  have := ((e4 1).mp e2).1
  rw [r2] at this
  simp at this

set_option maxRecDepth 100000 in
/-- Non-vacuity: a restarted node with the default numbers that hears 7 from the others before it publishes goes on with 8,
and a member that has 7 reports the 8. -/
example : (((Res.bind (Full.init sampleCfg) fun s => Full.run sampleCfg s
      (.call (.addUserNode pA) :: heardSeven ++ [.call (.publishName pA none)])).get?.map fun s => s.base.getSeqNo pA),
    ((Res.bind (Full.init sampleCfg) fun s => Full.run sampleCfg s
      (heardSeven ++ [.complete (encodeNames [pA.appendNumber 8]) []])).get?.map fun s => notified pA s.log)) =
    (some (some 8), some [(1, 7), (8, 8)]) := by decide +kernel

set_option maxRecDepth 100000 in
/-- Non-vacuity for the consumer: it has 4 for the subscribed /a; a reply with 1 is not reported, one with 6 is. -/
example : ((consRun [.call (.addSubscription pA 4 false), .call .sendHello,
      .helloSegment (ibfData (nameOf [115] ++ [HELLO]) .blob []), .helloComplete (encodeNames []) [] [], .call .sendSync,
      .syncSegment (ibfData (nameOf [115] ++ [SYNC]) .blob []), .syncComplete (encodeNames [pA.appendNumber 1]) [],
      .syncSegment (ibfData (nameOf [115] ++ [SYNC]) .blob []), .syncComplete (encodeNames [pA.appendNumber 6]) []]).get?.map fun s =>
      notified pA s.log) = some [(5, 6)] := by decide +kernel

end PSync
