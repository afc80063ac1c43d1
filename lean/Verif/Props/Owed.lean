import Verif.Proofs.Owed
import Verif.Props.Group
/-!
Property C58: a parked Interest is owed nothing.
-/
namespace PSync
open Spec

/-! ### Partial sync -/

/-- C58 for partial sync: while a sync Interest is parked, every current publication of a prefix that passes its
filter is among the publications its IBF stands for.  (`r` is the state in which the producer had that IBF.) -/
theorem c58_partial_producer (cfg : Cfg) (he : 0 < cfg.expected) (ops : List Part.Op) (s : Part)
    (hs : Part.run cfg (Part.init cfg) ops = .ok s) (hnc : NoCollisionsIn cfg.expected (fun p q => (p, q) ∈ s.made))
    (n : Name) (hn : n ∈ s.pending.keys) (bf : Bloom) (pre : List Part.Op) (hpre : pre <+: ops) (r : Part)
    (hr : Part.run cfg (Part.init cfg) pre = .ok r) (hf : SyncFields cfg n bf r.base.iblt) (p : Name) (x : Nat)
    (hp : s.base.getSeqNo p = some x) (hx : x ≠ 0) (hbf : bf.contains p = .ok true) :
    r.base.getSeqNo p = some x := by
  let G : Base → Prop := fun b => ∃ pre a, pre <+: ops ∧ Part.run cfg (Part.init cfg) pre = .ok a ∧ b = a.base
  have grow : ∀ (l : List Part.Op) (a b : Part), Part.Reach cfg a → Part.run cfg a l = .ok b → a.made <+: b.made := by
    intro l
    induction l with
    | nil => intro a b _ h; simp only [Part.run, foldRes, Res.ok.injEq] at h; subst h; exact List.prefix_refl _
    | cons op l ih =>
      intro a b ha h
      simp only [Part.run, foldRes, Res.bind_eq_ok] at h
      obtain ⟨c, h1, h2⟩ := h
      exact (Part.step_micro (Part.reach_parked ha) h1).made.trans (ih c b (ha.next h1) h2)
  have src : ∀ b, G b → TableSourced (fun p q => (p, q) ∈ s.made) b := by
    rintro b ⟨pre, a, ⟨post, rfl⟩, ha, rfl⟩
    refine (Part.reach_sourced ⟨pre, ha⟩).mono (fun p q hm => ?_)
    unfold Part.run at hs ha
    rw [foldRes_append, ha] at hs
    exact (grow post a s ⟨pre, ha⟩ hs).subset hm
  have hG : Comparable cfg.expected G := by
    refine ⟨?_, ?_, fun b b' hb hb' => noCollisions_of hnc (src b hb) (src b' hb')⟩
    · rintro b ⟨pre, a, _, ha, rfl⟩; exact Part.reach_inv ⟨pre, ha⟩
    · intro b hb
      have hb' := hb
      obtain ⟨pre, a, _, ha, rfl⟩ := hb'
      exact Part.reach_exact ⟨pre, ha⟩ (collisionFree_of hnc (src _ hb))
  have idle : ∀ (l : List Part.Op) (a : Part), l <+: ops → Part.run cfg (Part.init cfg) l = .ok a → Part.ParkedIdle G a := by
    intro l
    induction l using List.reverseRecOn with
    | nil =>
      intro a _ h
      simp only [Part.run, foldRes, Res.ok.injEq] at h
      subst h
      intro k e hk
      simp [Part.init] at hk
    | append_singleton l op ih =>
      intro a hl h
      have hl' : l <+: ops := (List.prefix_append l [op]).trans hl
      unfold Part.run at h
      rw [foldRes_append] at h
      simp only [Res.bind_eq_ok, foldRes, Res.ok.injEq] at h
      obtain ⟨b, h1, c, h2, rfl⟩ := h
      exact Part.step_idle hG he ⟨l, h1⟩ ⟨l, b, hl', h1, rfl⟩ (ih b hl' h1) h2
  rw [NMap.mem_keys, Option.isSome_iff_exists] at hn
  obtain ⟨e, hk⟩ := hn
  obtain ⟨h1, h2⟩ := Part.syncFields_unique ((Part.reach_parked ⟨ops, hs⟩).fields n e hk) hf
  by_contra hne
  have := idle ops s (List.prefix_refl _) hs n e hk r.base ⟨pre, r, hpre, hr, rfl⟩ h2.symm p x hp hx
    (fun ⟨q, y, h3, _, h5⟩ => hne (by
      obtain ⟨rfl, rfl⟩ := appendNumber_inj' ((Part.reach_inv ⟨ops, hs⟩).lt _ _ hp) ((Part.reach_inv ⟨pre, hr⟩).lt _ _ h3) h5; exact h3)) (by rw [h1]; exact hbf)
  simp at this

/-- An Interest with a filter that accepts every prefix and with the IBF of a producer that has published /a/1. -/
def knowsA : Interest :=
  ⟨nameOf [115] ++ [SYNC, ⟨8, [6]⟩, ⟨8, [1]⟩, ⟨8, List.replicate 11 0xff#8⟩,
    ((Res.bind (partRun [.addUserNode pA, .publishName pA none]) fun s => s.base.iblt.toComponent sampleCfg.ibltCodec).get?).getD
      ⟨8, []⟩], 1000, 1⟩

/-- The run of the non-vacuity case: /a/1 is published, then an Interest that knows it is parked, then one with an empty
filter and an empty IBF, which is parked too, since it does not want /a. -/
def owedPart : List Part.Op :=
  [.addUserNode pA, .publishName pA none, .recvInterest knowsA, .recvInterest noneInterest, .addUserNode pB]

set_option synthInstance.maxSize 1024 in
/-- Non-vacuity for `c58_partial_producer`: both Interests are parked, /a/1 passes the filter of the first one and is in
its IBF. -/
example : ∃ s r bf, partRun owedPart = .ok s ∧ partRun (owedPart.take 2) = .ok r ∧ knowsA.name ∈ s.pending.keys ∧
    noneInterest.name ∈ s.pending.keys ∧ NoCollisionsIn sampleCfg.expected (fun p q => (p, q) ∈ s.made) ∧
    SyncFields sampleCfg knowsA.name bf r.base.iblt ∧ s.base.getSeqNo pA = some 1 ∧ bf.contains pA = .ok true := by
  have k1 : ∃ s, partRun owedPart = .ok s ∧ (decide (knowsA.name ∈ s.pending.keys) &&
      decide (noneInterest.name ∈ s.pending.keys) && decide (s.made = [(pA, 1)]) &&
      decide (s.base.getSeqNo pA = some 1) &&
      decide ((s.pending.find knowsA.name).map (fun e => (e.bf.contains pA).get?) = some (some true)) &&
      decide ((s.pending.find knowsA.name).map (fun e => some e.iblt) =
        some ((partRun (owedPart.take 2)).get?.map (fun r => r.base.iblt)))) = true := Res.of_get? (by decide +kernel)
  obtain ⟨s, hs, h⟩ := k1
  simp only [Bool.and_eq_true, decide_eq_true_eq] at h
  obtain ⟨⟨⟨⟨⟨h1, h2⟩, h3⟩, h4⟩, h5⟩, h6⟩ := h
  obtain ⟨e, he, h5⟩ := Option.map_eq_some_iff.mp h5
  rw [he] at h6
  simp only [Option.map_some, Option.some.injEq] at h6
  obtain ⟨r, hr, h7⟩ := Res.of_get? h6.symm
  obtain ⟨b, hb, h8⟩ := Res.of_get? (f := id) (by rw [h5]; rfl)
  simp only [id] at h8
  subst h8
  refine ⟨s, r, e.bf, hs, hr, h1, h2, ?_, ?_, h4, hb⟩
  · rw [h3]
    exact noCollisionsIn_two (ps := [(pA, 1)]) (fun p q h => h) (by decide) (by decide +kernel) _
  · rw [h7]
    exact (Part.reach_parked ⟨owedPart, hs⟩).fields _ e he

set_option synthInstance.maxSize 1024 in
/-- After /b/1 is published as well, the Interest that wants everything is answered with /b/1, and the one with the empty
filter with an empty content, since it now lacks two publications (the threshold of the sample). -/
example : ((partRun (owedPart ++ [.publishName pB none])).get?.map (fun s : Part =>
    (s.pending.keys.contains knowsA.name, (dataOf s.log).map (fun d => (StateMsg.wireDecode d.content).get?.map (·.content)))))
    = some (false, [some [], some [pB.appendNumber 1]]) := by decide +kernel

/-! ### Full sync -/

/-- The full claim C58 for full sync: while a sync Interest is parked, every current publication is among those
its IBF stands for. -/
def Spec.OwedNothing : Prop :=
  ∀ cfg : Cfg, cfg.WF → 0 < cfg.expected → ∀ s r : Full, Full.Reach cfg s → Full.Reach cfg r →
    CollisionFree s.base.hist → CollisionFree r.base.hist → NoCollisions cfg.expected s.base.getSeqNo r.base.getSeqNo →
    ∀ n ∈ s.pending.keys, CarriesIbf cfg n r.base.iblt → ∀ m, IsLive s.base.getSeqNo m → IsLive r.base.getSeqNo m

/-- C58 for full sync, partial: as long as the IBF of the node changes only by its own publications, every parked
Interest carries the IBF the node has now, and every current publication is among those that IBF stands for.
(Missing: nodes that receive sync Data with news or remove prefixes, `c58_false`.) -/
theorem c58_full_partial (cfg : Cfg) (he : 0 < cfg.expected) (s0 s : Full) (ops : List Full.Op)
    (h0 : Full.init cfg = .ok s0) (hs : Full.run cfg s0 ops = .ok s)
    (hown : ∀ pre op post a b, ops = pre ++ op :: post → Full.run cfg s0 pre = .ok a → Full.step cfg a op = .ok b →
      b.base.iblt = a.base.iblt ∨ ∃ p q, op = .call (.publishName p q))
    (n : Name) (hn : n ∈ s.pending.keys) :
    CarriesIbf cfg n s.base.iblt ∧
    ∀ r, Full.Reach cfg r → CollisionFree s.base.hist → CollisionFree r.base.hist →
      NoCollisions cfg.expected s.base.getSeqNo r.base.getSeqNo → CarriesIbf cfg n r.base.iblt →
      ∀ m, IsLive s.base.getSeqNo m → IsLive r.base.getSeqNo m := by
  have key : ∀ (l : List Full.Op) (a : Full), l <+: ops → Full.run cfg s0 l = .ok a → Full.AllCarry cfg a.base.iblt a := by
    intro l
    induction l using List.reverseRecOn with
    | nil =>
      intro a _ h
      simp only [Full.run, foldRes, Res.ok.injEq] at h
      subst h
      intro k hk
      rw [(Full.init_lists h0).2.1] at hk
      simp [NMap.keys] at hk
    | append_singleton l op ih =>
      intro a hl h
      obtain ⟨post, hpost⟩ := hl
      unfold Full.run at h
      rw [foldRes_append] at h
      simp only [Res.bind_eq_ok, foldRes, Res.ok.injEq] at h
      obtain ⟨b, h1, c, h2, rfl⟩ := h
      refine Full.step_carry h2 (hown l op post b c (by rw [← hpost]; simp) h1 h2) (ih b ?_ h1)
      exact ⟨op :: post, by rw [← hpost]; simp⟩
  have hc := key ops s (List.prefix_refl _) hs n hn
  refine ⟨hc, fun r hr hcf hcf' hnc hcr m hm => ?_⟩
  obtain ⟨m1, c1, d1, e1, t1⟩ := hc
  obtain ⟨m2, c2, d2, e2, t2⟩ := hcr
  have e3 := (List.append_inj' (e1.symm.trans e2) rfl).2
  simp only [List.cons.injEq] at e3
  obtain ⟨rfl, _⟩ := e3
  rw [t1, Res.ok.injEq] at t2
  have hsr : Full.Reach cfg s := ⟨s0, ops, h0, hs⟩
  have := Base.diff_live (fuel := 0 + 1) he (Full.reach_inv hsr) (Full.reach_inv hr) (Full.reach_exact hsr hcf)
    (Full.reach_exact hr hcf') hnc (d := ⟨true, [], []⟩) (by rw [t2]; exact diff_self 0 _) rfl
  by_contra hx
  have := (this.1 m hm).mpr hx
  simp at this

set_option synthInstance.maxSize 1024 in
/-- Non-vacuity for `c58_full_partial`: a node publishes /a/1 and then parks an Interest that knows it.  The IBF changes
only in the second event. -/
example : (Res.bind (Full.init sampleCfg) fun s0 => Full.run sampleCfg s0
    [.call (.addUserNode pA), .call (.publishName pA (some 1)), .recvInterest aheadInterest]).get?.map (fun s =>
      (s.pending.keys, s.base.prefixes,
        decide ((Res.bind (aheadInterest.name.getFromEnd 2) fun c =>
          Table.initialize sampleCfg.ibltCodec sampleCfg.expected c).get? = some s.base.iblt)))
    = some ([aheadInterest.name], [(pA, 1)], true) := by decide +kernel

/-- The node publishes /a/1 while its own fetch (sent before) is under way, parks an Interest with the IBF of /a/1, and
its fetch completes with /b/1. -/
def owedOps : List Full.Op :=
  [.call (.addUserNode pA), .call (.publishName pA (some 1)), .recvInterest aheadInterest,
   .complete (encodeNames [pB.appendNumber 1]) []]

theorem noCollisions_of_tables {P : Name → Nat → Prop} {e : Nat} (hP : NoCollisionsIn e P) {m m' : NMap Nat}
    (h : ∀ p q, m.find p = some q → q = 0 ∨ P p q) (h' : ∀ p q, m'.find p = some q → q = 0 ∨ P p q) :
    NoCollisions e m.find m'.find := by
  have := noCollisions_of hP (b := { Base.new sampleCfg with prefixes := m, hist := [] })
    (b' := { Base.new sampleCfg with prefixes := m', hist := [] })
    ⟨h, fun p old new m hm => by simp at hm⟩ ⟨h', fun p old new m hm => by simp at hm⟩
  exact this

set_option synthInstance.maxSize 1024 in
/-- C58 is false for full sync: after /b/1 has arrived the Interest that stands for /a/1 alone stays parked. -/
theorem c58_false : ¬ Spec.OwedNothing := by
  intro h
  have k1 : ∃ s, (Res.bind (Full.init sampleCfg) fun s0 => Full.run sampleCfg s0 owedOps) = .ok s ∧
      (s.base.prefixes, s.pending.keys, checkHist s.base.hist) = ([(pA, 1), (pB, 1)], [aheadInterest.name], true) :=
    Res.of_get? (by decide +kernel)
  have k2 : ∃ s, (Res.bind (Full.init sampleCfg) fun s0 => Full.run sampleCfg s0
      [.call (.addUserNode pA), .call (.publishName pA (some 1))]) = .ok s ∧
      (s.base.prefixes, checkHist s.base.hist, decide ((Res.bind (aheadInterest.name.getFromEnd 2) fun c =>
        Table.initialize sampleCfg.ibltCodec sampleCfg.expected c).get? = some s.base.iblt))
        = ([(pA, 1)], true, true) := Res.of_get? (by decide +kernel)
  obtain ⟨s, hs, h3⟩ := k1
  obtain ⟨r, hr, h4⟩ := k2
  simp only [Prod.mk.injEq] at h3 h4
  rw [Res.bind_eq_ok] at hs hr
  obtain ⟨s0, a1, a2⟩ := hs
  obtain ⟨r0, b1, b2⟩ := hr
  obtain ⟨t, ht, ht'⟩ := Res.of_get? (f := id) (by rw [of_decide_eq_true h4.2.2]; rfl)
  rw [Res.bind_eq_ok] at ht
  obtain ⟨c, hc, ht⟩ := ht
  simp only [id] at ht'
  subst ht'
  have hP : NoCollisionsIn sampleCfg.expected (fun p q => (p, q) ∈ [(pA, 1), (pB, 1)]) :=
    noCollisionsIn_two (ps := [(pA, 1), (pB, 1)]) (fun p q h => h) (by decide) (by decide +kernel) _
  have hl := h sampleCfg sampleCfg_wf (by decide) s r ⟨s0, _, a1, a2⟩ ⟨r0, _, b1, b2⟩ (collisionFree_of_check h3.2.2)
    (collisionFree_of_check h4.2.1)
    (noCollisions_of_tables hP (fun p q hq => .inr (by rw [h3.1] at hq; exact NMap.mem_of_find hq))
      (fun p q hq => .inr (by rw [h4.1] at hq; exact List.mem_cons.mpr (.inl (by simpa using NMap.mem_of_find hq)))))
    aheadInterest.name (by rw [h3.2.1]; simp) (Full.carries_of (by decide +kernel) hc ht)
    (pB.appendNumber 1) ⟨pB, 1, by rw [Base.getSeqNo, h3.1]; decide +kernel, by decide, rfl⟩
  obtain ⟨p, x, h5, h6, h7⟩ := hl
  rw [Base.getSeqNo, h4.1] at h5
  have h8 := NMap.mem_of_find h5
  simp only [List.mem_singleton, Prod.mk.injEq] at h8
  rw [h8.1, h8.2] at h7
  revert h7
  decide +kernel

end PSync
