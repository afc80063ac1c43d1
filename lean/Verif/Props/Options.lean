import Verif.Spec.Options
import Verif.Props.Compression
import Verif.Proofs.BaseTotal
/-!
C95: what the constructors make of their arguments.
-/
namespace PSync
open Spec

theorem construct_base {b : Build} {env : Cfg} {syncPrefix : Name} {o : FullOptions} {s : Full}
    (h : Full.construct b env syncPrefix o = .ok s) : s.base = Base.new (o.cfg b env syncPrefix) ∧ s.pending = [] := by
  refine ⟨Full.init_base h, ?_⟩
  unfold Full.construct Full.init at h
  rcases Full.sendSyncInterest_ok h with ⟨_, rfl⟩ | ⟨_, name, hn, ⟨_, _, rfl⟩ | ⟨_, rfl⟩⟩ <;> rfl

theorem registered_new (cfg : Cfg) (p : Name) : ((Base.new cfg).addUserNode p).2.prefixes.find p = some 0 := by
  unfold Base.addUserNode Base.new
  simp [NMap.find, NMap.set]

theorem first_update {cfg : Cfg} (he : 0 < cfg.expected) (p : Name) :
    ∃ b, ((Base.new cfg).addUserNode p).2.updateSeqNo p 1 = .ok b ∧ b.prefixes.find p = some 1 := by
  have hs : ((Base.new cfg).addUserNode p).2.Small cfg.expected :=
    Base.Steps.small (R := fun _ => True) he (Relation.ReflTransGen.single (.add p)) (Base.small_new cfg)
  obtain ⟨b, hb⟩ := Base.update_total he hs (by unfold Base.addUserNode Base.new; split <;> simp) p 1
  refine ⟨b, hb, ?_⟩
  rcases Base.updateSeqNo_ok hb with ⟨_, h⟩ | ⟨s, b1, t, hp, hlt, h1, _, _, _, h2, rfl⟩
  · have := h 0 (registered_new cfg p)
    omega
  · simp only [NMap.find_set, if_true]

/-- C95: a FullProducer with at least one expected entry can publish. -/
theorem c95_full_partial (b : Build) (env : Cfg) (syncPrefix : Name) (o : FullOptions) (ho : 0 < o.ibfCount) (s : Full)
    (h : Full.construct b env syncPrefix o = .ok s) (p : Name) : FullCanPublish (o.cfg b env syncPrefix) s p := by
  obtain ⟨h1, h2⟩ := construct_base h
  obtain ⟨b', h3, h4⟩ := first_update (cfg := o.cfg b env syncPrefix) ho p
  unfold FullCanPublish
  have hq : Full.newSeq none 0 = 1 := by decide
  refine ⟨{ s with base := b', waitOut := false, made := s.made ++ [(p, 1)] }, ?_, h4⟩
  simp only [Full.run, foldRes, Full.step, Full.call, Res.ok_bind, Full.publishName, h1, registered_new, hq, h3, Full.satisfyPending, h2]

/-- C95: a PartialProducer with at least one expected entry can publish. -/
theorem c95_part_partial (b : Build) (env : Cfg) (syncPrefix : Name) (o : PartOptions) (ho : 0 < o.ibfCount) (s : Part)
    (h : Part.construct b env syncPrefix o = .ok s) (p : Name) : PartCanPublish (o.cfg b env syncPrefix) s p := by
  cases h
  obtain ⟨b', h3, h4⟩ := first_update (cfg := o.cfg b env syncPrefix) ho p
  unfold PartCanPublish
  have hq : Full.newSeq none 0 = 1 := by decide
  refine ⟨{ Part.init (o.cfg b env syncPrefix) with base := b', made := [(p, 1)] }, ?_, h4⟩
  simp only [Part.run, foldRes, Part.step, Part.init, Res.ok_bind, Part.publishName, registered_new, hq, h3, Part.satisfyPending, List.nil_append]

/-! ### No expected entries -/

/-- The table of a producer that was made for 0 entries: nothing was ever published. -/
structure NilBase (b : Base) : Prop where
  iblt : b.iblt = []
  biMap : b.biMap = []
  zero : ∀ p q, b.prefixes.find p = some q → q = 0

theorem NilBase.erase {b b' : Base} (h : NilBase b) {n : Name} (he : b.eraseName n = .ok b') : b' = b := by
  unfold Base.eraseName at he
  rw [h.biMap] at he
  simp only [BiMap.findRight, List.find?_nil, Option.map_none, Res.ok.injEq] at he
  exact he.symm

theorem NilBase.update {b : Base} (h : NilBase b) {p : Name} {q : Nat} (hp : b.prefixes.find p = some 0) (hq : q ≠ 0) :
    b.updateSeqNo p q = .ub .divByZero := by
  unfold Base.updateSeqNo
  rw [hp]
  have : ¬ (0 ≥ q) := by omega
  simp only [this, if_false, ne_eq, not_true, Res.ok_bind]
  unfold Table.insert ibltUpdate
  rw [h.iblt]
  rfl

theorem NilBase.steps {b b' : Base} (h : NilBase b) (hs : Base.Steps (fun _ => True) b b') : NilBase b' := by
  induction hs with
  | refl => exact h
  | @tail b0 b1 _ hs ih =>
    cases hs with
    | add p =>
      unfold Base.addUserNode
      split
      · refine ⟨ih.iblt, ih.biMap, ?_⟩
        intro p' q hq
        simp only [NMap.find_set] at hq
        split at hq
        · cases hq; rfl
        · exact ih.zero p' q hq
      · exact ih
    | remove p _ hr =>
      unfold Base.removeUserNode at hr
      split at hr
      · cases hr; exact ih
      · rename_i x _
        have h1 : NilBase { b0 with prefixes := b0.prefixes.erase p, hist := b0.hist ++ [.remove p x] } := by
          refine ⟨ih.iblt, ih.biMap, ?_⟩
          intro p' q hq
          simp only [NMap.find_erase] at hq
          split at hq
          · cases hq
          · exact ih.zero p' q hq
        rw [NilBase.erase h1 hr]; exact h1
    | update p q hq hu =>
      unfold Base.updateSeqNo at hu
      split at hu
      · cases hu; exact ih
      · rename_i old hold
        have := ih.zero p old hold
        subst this
        by_cases hz : q = 0
        · subst hz; simp only [ge_iff_le, Nat.le_refl, if_true, Res.ok.injEq] at hu; subst hu; exact ih
        · have := ih.update hold hz
          unfold Base.updateSeqNo at this
          rw [hold] at this
          simp only at this
          rw [this] at hu
          cases hu

theorem nil_new {cfg : Cfg} (h : cfg.expected = 0) : NilBase (Base.new cfg) := by
  refine ⟨?_, rfl, fun p q hq => (by cases hq)⟩
  simp only [Base.new, h]
  rfl

theorem newSeq_pos {seq : Option Nat} (h : ∀ q, seq = some q → 0 < q ∧ q < 18446744073709551616) : Full.newSeq seq 0 ≠ 0 := by
  unfold Full.newSeq U64
  cases seq with
  | none => decide
  | some q => have := h q rfl; simp only; omega

/-- C95: with 0 expected entries, a FullProducer divides by zero as soon as something is published, and until then all prefixes have
number 0. -/
theorem c95_zero_full (cfg : Cfg) (h0 : cfg.expected = 0) (s : Full) (h : Full.Reach cfg s) (p : Name) :
    (∀ q, s.base.getSeqNo p = some q → q = 0) ∧
    (s.base.getSeqNo p = some 0 → ∀ seq, (∀ q, seq = some q → 0 < q ∧ q < 18446744073709551616) →
      Full.step cfg s (.call (.publishName p seq)) = .ub .divByZero) := by
  have hn := (nil_new h0).steps (Full.reach_steps h)
  refine ⟨hn.zero p, fun hp seq hs => ?_⟩
  have hp : s.base.prefixes.find p = some 0 := hp
  simp only [Full.step, Full.call, Full.publishName, hp, hn.update hp (newSeq_pos hs)]
  rfl

/-- C95: and so does a PartialProducer. -/
theorem c95_zero_part (cfg : Cfg) (h0 : cfg.expected = 0) (s : Part) (h : Part.Reach cfg s) (p : Name) :
    (∀ q, s.base.getSeqNo p = some q → q = 0) ∧
    (s.base.getSeqNo p = some 0 → ∀ seq, (∀ q, seq = some q → 0 < q ∧ q < 18446744073709551616) →
      Part.step cfg s (.publishName p seq) = .ub .divByZero) := by
  have hn := (nil_new h0).steps (Part.reach_steps h)
  refine ⟨hn.zero p, fun hp seq hs => ?_⟩
  have hp : s.base.prefixes.find p = some 0 := hp
  simp only [Part.step, Part.publishName, hp, hn.update hp (newSeq_pos hs)]
  rfl

/-- C95 is false: with 0 expected entries a FullProducer can be constructed, but not publish. -/
theorem c95_false : ¬ EveryOptionWorks := by
  intro h
  obtain ⟨s, _, h1, _⟩ := (c94_construct_partial bareBuild bareBuild_sound sampleCfg (nameOf [115]) ⟨0, .none, 1000, 1000, .none⟩).1
    (Or.inl rfl)
  obtain ⟨s', h2, _⟩ := h bareBuild bareBuild_sound sampleCfg (nameOf [115]) ⟨0, .none, 1000, 1000, .none⟩ (by decide) s h1 pA
  simp only [Full.run, foldRes, Res.bind_eq_ok] at h2
  obtain ⟨s1, h3, s2, h4, _⟩ := h2
  have hr : Full.Reach ((FullOptions.mk 0 .none 1000 1000 .none).cfg bareBuild sampleCfg (nameOf [115])) s1 :=
    ⟨s, [.call (.addUserNode pA)], h1, by simp only [Full.run, foldRes, h3, Res.ok_bind]⟩
  have hp : s1.base.getSeqNo pA = some 0 := by
    simp only [Full.step, Full.call, Res.ok.injEq] at h3
    subst h3
    simp only [(construct_base h1).1]
    exact registered_new _ _
  have := (c95_zero_full _ rfl s1 hr pA).2 hp none (fun q hq => by cases hq)
  rw [this] at h4
  cases h4

/-! ### The deprecated constructors -/

theorem nCells_ge (e : Nat) : e ≤ nCells e := by
  show e ≤ if (e + e / 2) % N_HASH ≠ 0 then e + e / 2 + (N_HASH - (e + e / 2) % N_HASH) else e + e / 2
  by_cases h : (e + e / 2) % N_HASH ≠ 0
  · rw [if_pos h]; omega
  · rw [if_neg h]; omega

theorem oneMore_new (cfg : Cfg) (p : Name) : OneMore (Base.new cfg) ((Base.new cfg).addUserNode p).2 p := by
  refine ⟨?_, ?_, ?_, registered_new cfg p, ?_⟩
  · unfold Base.addUserNode; split <;> rfl
  · unfold Base.addUserNode; split <;> rfl
  · unfold Base.addUserNode; split <;> rfl
  · intro p' hp
    unfold Base.addUserNode Base.getSeqNo
    split
    · simp only [NMap.find_set, if_neg (Ne.symm hp)]
    · rfl

/-- C95: if the count fits into 32 bits, the deprecated constructor of a FullProducer does the same as the constructor with the
corresponding options, and registers the user prefix; and there is room for as many entries as were asked for.  The result is one of the
states to which all other statements apply. -/
theorem c95_old_full_partial (b : Build) (env : Cfg) (expected : Nat) (he : expected < 4294967296) (syncPrefix userPrefix : Name)
    (lifetime freshness : Nat) (iblt content : Scheme) :
    (∀ s, Full.constructOld b env expected syncPrefix userPrefix lifetime freshness iblt content = .ok s →
      Full.Reach ((FullOptions.mk expected iblt lifetime freshness content).cfg b env syncPrefix) s ∧ expected ≤ s.base.iblt.length ∧
      ∃ s0, Full.construct b env syncPrefix ⟨expected, iblt, lifetime, freshness, content⟩ = .ok s0 ∧
        s = { s0 with base := s.base } ∧ OneMore s0.base s.base userPrefix) ∧
    (∀ s0, Full.construct b env syncPrefix ⟨expected, iblt, lifetime, freshness, content⟩ = .ok s0 →
      ∃ s, Full.constructOld b env expected syncPrefix userPrefix lifetime freshness iblt content = .ok s) := by
  have ho : FullOptions.ofOld expected lifetime freshness iblt content = ⟨expected, iblt, lifetime, freshness, content⟩ := by
    unfold FullOptions.ofOld
    rw [Nat.mod_eq_of_lt he]
  unfold Full.constructOld
  rw [ho]
  constructor
  · intro s h
    simp only [Res.bind_eq_ok] at h
    obtain ⟨s0, h1, h2⟩ := h
    have h3 := h2
    simp only [Full.call, Res.ok.injEq] at h3
    have hb := (construct_base h1).1
    refine ⟨⟨s0, [.call (.addUserNode userPrefix)], h1, by simp only [Full.run, foldRes, Full.step, h2, Res.ok_bind]⟩, ?_, s0, h1, ?_, ?_⟩
    · rw [← h3]
      simp only [hb, (oneMore_new _ userPrefix).iblt]
      simp only [Base.new, Table.new, List.length_replicate, FullOptions.cfg]
      exact nCells_ge expected
    · rw [← h3]
    · rw [← h3, hb]
      exact oneMore_new _ userPrefix
  · intro s0 h1
    simp only [h1, Res.ok_bind]
    exact ⟨_, rfl⟩

/-- C95: and likewise that of a PartialProducer. -/
theorem c95_old_part_partial (b : Build) (env : Cfg) (expected : Nat) (he : expected < 4294967296) (syncPrefix userPrefix : Name)
    (hello freshness : Nat) (iblt : Scheme) :
    ∃ s0 s, Part.construct b env syncPrefix ⟨expected, iblt, hello, freshness⟩ = .ok s0 ∧
      Part.constructOld b env expected syncPrefix userPrefix hello freshness iblt = .ok s ∧
      Part.Reach ((PartOptions.mk expected iblt hello freshness).cfg b env syncPrefix) s ∧ expected ≤ s.base.iblt.length ∧
      s = { s0 with base := s.base } ∧ OneMore s0.base s.base userPrefix := by
  have ho : PartOptions.ofOld expected hello freshness iblt = ⟨expected, iblt, hello, freshness⟩ := by
    unfold PartOptions.ofOld
    rw [Nat.mod_eq_of_lt he]
  unfold Part.constructOld
  rw [ho]
  refine ⟨_, _, rfl, rfl, ⟨[.addUserNode userPrefix], rfl⟩, ?_, rfl, oneMore_new _ userPrefix⟩
  have := (oneMore_new ((PartOptions.mk expected iblt hello freshness).cfg b env syncPrefix) userPrefix).iblt
  simp only [Part.init, this]
  simp only [Base.new, Table.new, List.length_replicate, PartOptions.cfg]
  exact nCells_ge expected

/-- C95: but a larger count is cut to 32 bits without notice: asked for 2^32 + 1 entries, the deprecated constructor makes 3 cells. -/
theorem c95_old_false : ¬ OldHasRoom := by
  intro h
  obtain ⟨s, _, h1, _⟩ := (c94_construct_partial bareBuild bareBuild_sound sampleCfg (nameOf [115]) ⟨1, .none, 1000, 1000, .none⟩).1
    (Or.inl rfl)
  have hc : Full.constructOld bareBuild sampleCfg 4294967297 (nameOf [115]) pA 1000 1000 .none .none =
      .ok { s with base := (s.base.addUserNode pA).2 } := by
    unfold Full.constructOld
    have ho : FullOptions.ofOld 4294967297 1000 1000 .none .none = ⟨1, .none, 1000, 1000, .none⟩ := rfl
    simp only [ho, h1, Res.ok_bind]
    rfl
  have := h bareBuild bareBuild_sound sampleCfg 4294967297 (nameOf [115]) pA 1000 1000 .none .none (by decide) _ hc
  simp only [(construct_base h1).1, (oneMore_new _ pA).iblt] at this
  have hl : (Table.new 1).length = 3 := by decide
  have this : 4294967297 ≤ (Table.new 1).length := this
  omega

/-- C95: whatever count is given, what the deprecated constructor of a FullProducer makes can publish exactly if the count is not a multiple
of 2^32. -/
theorem c95_old_publish (b : Build) (env : Cfg) (expected : Nat) (syncPrefix userPrefix : Name) (lifetime freshness : Nat)
    (iblt content : Scheme) (s : Full) (h : Full.constructOld b env expected syncPrefix userPrefix lifetime freshness iblt content = .ok s) :
    (∃ s', Full.step ((FullOptions.ofOld expected lifetime freshness iblt content).cfg b env syncPrefix) s (.call (.publishName userPrefix none)) = .ok s')
      ↔ expected % 4294967296 ≠ 0 := by
  unfold Full.constructOld at h
  simp only [Res.bind_eq_ok] at h
  obtain ⟨s0, h1, h2⟩ := h
  have h2 := h2
  constructor
  · rintro ⟨s', hs'⟩ hz
    have hr : Full.Reach ((FullOptions.ofOld expected lifetime freshness iblt content).cfg b env syncPrefix) s :=
      ⟨s0, [.call (.addUserNode userPrefix)], h1, by simp only [Full.run, foldRes, Full.step, h2, Res.ok_bind]⟩
    have hp : s.base.getSeqNo userPrefix = some 0 := by
      simp only [Full.call, Res.ok.injEq] at h2
      subst h2
      simp only [(construct_base h1).1]
      exact registered_new _ _
    have := (c95_zero_full _ hz s hr userPrefix).2 hp none (fun q hq => by cases hq)
    rw [this] at hs'
    cases hs'
  · intro hz
    obtain ⟨s', h3, _⟩ := c95_full_partial b env syncPrefix _ (Nat.pos_of_ne_zero hz) s0 h1 userPrefix
    simp only [Full.run, foldRes, Full.step, h2, Res.ok_bind, Res.bind_eq_ok, Res.ok.injEq] at h3
    obtain ⟨s'', h4, _⟩ := h3
    exact ⟨s'', h4⟩

/-- C95: the default options: 80 expected entries give 120 cells, 40 give 60; both kinds of producer can publish. -/
theorem c95_default (b : Build) (hb : SoundBuild b) (env : Cfg) (syncPrefix p : Name) :
    (∃ s, Full.construct b env syncPrefix (FullOptions.default b) = .ok s ∧ s.base.iblt.length = 120 ∧
      FullCanPublish ((FullOptions.default b).cfg b env syncPrefix) s p) ∧
    (∃ s, Part.construct b env syncPrefix PartOptions.default = .ok s ∧ s.base.iblt.length = 60 ∧
      PartCanPublish (PartOptions.default.cfg b env syncPrefix) s p) := by
  constructor
  · obtain ⟨s, _, h1, _⟩ := (c94_construct_partial b hb env syncPrefix (FullOptions.default b)).1 (c94_default b).1
    refine ⟨s, h1, ?_, c95_full_partial b env syncPrefix _ (by show 0 < 80; decide) s h1 p⟩
    rw [(construct_base h1).1]
    simp only [Base.new, FullOptions.cfg, FullOptions.default]
    decide
  · refine ⟨_, rfl, ?_, c95_part_partial b env syncPrefix _ (by decide) _ rfl p⟩
    simp only [Part.init, Base.new, PartOptions.cfg, PartOptions.default]
    decide

set_option synthInstance.maxSize 1024 in
/-- Non-vacuity: the deprecated constructor with 4 entries, and one publication. -/
example : (match Full.constructOld bareBuild sampleCfg 4 (nameOf [115]) pA 1000 1000 .none .none with
    | .ok s => match Full.step sampleCfg s (.call (.publishName pA none)) with
      | .ok s => (s.base.getSeqNo pA, s.base.iblt.length, s.log.length)
      | _ => (none, 0, 0)
    | _ => (none, 0, 0)) = (some 1, 6, 1) := by decide +kernel

end PSync
