import Verif.Proofs.BaseTotal
import Verif.Proofs.Partial
import Verif.Props.Sample
import Verif.Props.Iblt
/-!
Properties C18–C22: the prefix table and the IBF of a producer (`psync::ProducerBase` as used by
FullProducer and PartialProducer).
-/
namespace PSync
open Spec

/-- Names used in the examples: /a, /b. -/
def pA : Name := nameOf [97]
def pB : Name := nameOf [98]

/-! ### C18 -/

/-- C18, full sync: while nothing removes `p`, its number never goes down and it stays registered. -/
theorem c18_full_monotone (cfg : Cfg) (s s' : Full) (ops : List Full.Op) (h : Full.run cfg s ops = .ok s')
    (p : Name) (hp : ∀ op ∈ ops, ¬ op.Removes p) (x : Nat) (hx : s.base.getSeqNo p = some x) :
    ∃ y, s'.base.getSeqNo p = some y ∧ x ≤ y :=
  (Full.run_steps h).mono_seq (fun ⟨op, ho, hr⟩ => hp op ho hr) hx

/-- C18, partial sync. -/
theorem c18_partial_monotone (cfg : Cfg) (s s' : Part) (ops : List Part.Op) (h : Part.run cfg s ops = .ok s')
    (p : Name) (hp : ∀ op ∈ ops, ¬ op.Removes p) (x : Nat) (hx : s.base.getSeqNo p = some x) :
    ∃ y, s'.base.getSeqNo p = some y ∧ x ≤ y :=
  (Part.run_steps h).mono_seq (fun ⟨op, ho, hr⟩ => hp op ho hr) hx

/-- Non-vacuity for C18: a history with a higher, a lower and an automatic publication. -/
example : ((Res.bind (Full.init sampleCfg) fun s => Full.run sampleCfg s
      [.call (.addUserNode pA), .call (.publishName pA (some 7)), .call (.publishName pA (some 3)),
       .call (.publishName pA none)]).get?.map (fun s => s.base.getSeqNo pA)) = some (some 8) := by
  decide +kernel

/-! ### C19 -/

theorem newSeq_max (seq : Option Nat) (old : Nat) (ho : old < U64) (hs : ∀ x, seq = some x → x < U64) :
    max old (Full.newSeq seq old) = publishedSeq seq old := by
  unfold Full.newSeq publishedSeq
  cases seq with
  | some x => simp only [Nat.mod_eq_of_lt (hs x rfl)]
  | none =>
    have h64 : (2 : Nat) ^ 64 = U64 := by decide
    simp only [h64]
    split
    · rename_i h; rw [Nat.mod_eq_of_lt h]; omega
    · rename_i h
      have : old + 1 = U64 := by omega
      rw [this, Nat.mod_self]; omega

/-- C19, full sync. `old+1` is `old` when `old` is the largest uint64. -/
theorem c19_full_publish (cfg : Cfg) (s s' : Full) (hs : Full.Reach cfg s) (p : Name) (seq : Option Nat)
    (hq : ∀ x, seq = some x → x < 2 ^ 64) (h : Full.publishName cfg s p seq = .ok s') :
    (s.base.getSeqNo p = none → s' = s) ∧
    (∀ old, s.base.getSeqNo p = some old →
      s'.base.getSeqNo p = some (publishedSeq seq old)) ∧
    (∀ r, r ≠ p → s'.base.getSeqNo r = s.base.getSeqNo r) := by
  have hinv := Full.reach_inv hs
  rcases Full.publishName_base h with ⟨hn, rfl⟩ | ⟨cur, hc, h1⟩
  · exact ⟨fun _ => rfl, fun old ho => by rw [Base.getSeqNo, hn] at ho; simp at ho, fun _ _ => rfl⟩
  · refine ⟨fun hn => by rw [Base.getSeqNo, hc] at hn; simp at hn, fun old ho => ?_, fun r hr => ?_⟩
    · rw [Base.getSeqNo, hc] at ho
      cases ho
      rw [Base.getSeqNo, Base.find_updateSeqNo h1, if_pos rfl, hc, Option.map_some,
        newSeq_max seq cur (hinv.lt p cur hc) hq]
    · rw [Base.getSeqNo, Base.find_updateSeqNo h1, if_neg (fun h => hr h.symm)]; rfl

/-- C19, partial sync. -/
theorem c19_partial_publish (cfg : Cfg) (s s' : Part) (hs : Part.Reach cfg s) (p : Name) (seq : Option Nat)
    (hq : ∀ x, seq = some x → x < 2 ^ 64) (h : Part.publishName cfg s p seq = .ok s') :
    (s.base.getSeqNo p = none → s' = s) ∧
    (∀ old, s.base.getSeqNo p = some old →
      s'.base.getSeqNo p = some (publishedSeq seq old)) ∧
    (∀ r, r ≠ p → s'.base.getSeqNo r = s.base.getSeqNo r) := by
  have hinv := Part.reach_inv hs
  rcases Part.publishName_ok h with ⟨hn, rfl⟩ | ⟨cur, b, hc, h1, _, rfl⟩
  · exact ⟨fun _ => rfl, fun old ho => by rw [Base.getSeqNo, hn] at ho; simp at ho, fun _ _ => rfl⟩
  · refine ⟨fun hn => by rw [Base.getSeqNo, hc] at hn; simp at hn, fun old ho => ?_, fun r hr => ?_⟩
    · rw [Base.getSeqNo, hc] at ho
      cases ho
      rw [Base.getSeqNo, Base.find_updateSeqNo h1, if_pos rfl, hc, Option.map_some,
        newSeq_max seq cur (hinv.lt p cur hc) hq]
    · rw [Base.getSeqNo, Base.find_updateSeqNo h1, if_neg (fun h => hr h.symm)]; rfl

/-- C19: the table update inside publishName cannot fail (capacity at least 1, fewer than 2^30 - 1
recorded changes). -/
theorem c19_total (cfg : Cfg) (he : 0 < cfg.expected) (b : Base)
    (hb : (∃ s, Full.Reach cfg s ∧ s.base = b) ∨ (∃ s, Part.Reach cfg s ∧ s.base = b))
    (hh : b.hist.length < 1073741823) (p : Name) (q : Nat) :
    (∃ b', b.updateSeqNo p q = .ok b') ∧ (∃ b', b.removeUserNode p = .ok b') := by
  have hs : b.Small cfg.expected := by
    rcases hb with ⟨s, h, rfl⟩ | ⟨s, h, rfl⟩
    · exact (Full.reach_steps h).small he (Base.small_new cfg)
    · exact (Part.reach_steps h).small he (Base.small_new cfg)
  exact ⟨Base.update_total he hs hh p q, Base.remove_total he hs hh p⟩

/-- Non-vacuity for C19: explicit, automatic and ignored publications on a partial producer. -/
example : ((Part.run sampleCfg (Part.init sampleCfg)
      [.addUserNode pA, .publishName pA (some 5), .publishName pA none, .publishName pB none]).get?.map
      (fun s => (s.base.getSeqNo pA, s.base.getSeqNo pB))) = some (some 6, none) := by
  decide +kernel

/-! ### C20 -/

/-- C20: addUserNode. -/
theorem c20_add (b : Base) (p : Name) :
    ((b.addUserNode p).1 = true ↔ b.getSeqNo p = none) ∧
    (b.getSeqNo p = none → (b.addUserNode p).2.getSeqNo p = some 0) ∧
    (∀ r, r ≠ p → (b.addUserNode p).2.getSeqNo r = b.getSeqNo r) ∧
    (b.getSeqNo p ≠ none → (b.addUserNode p).2 = b) ∧
    ((b.addUserNode p).2.addUserNode p) = (false, (b.addUserNode p).2) := by
  have hf := Base.find_addUserNode b p
  refine ⟨?_, ?_, ?_, ?_, ?_⟩
  · unfold Base.addUserNode Base.getSeqNo
    cases b.prefixes.find p <;> simp
  · intro h
    rw [Base.getSeqNo, hf, if_pos rfl]
    rw [Base.getSeqNo] at h
    rw [h]; rfl
  · intro r hr
    rw [Base.getSeqNo, hf, if_neg (fun h => hr h.symm)]; rfl
  · intro h
    unfold Base.getSeqNo at h
    unfold Base.addUserNode
    cases hx : b.prefixes.find p with
    | none => exact absurd hx h
    | some _ => rfl
  · have h1 : (b.addUserNode p).2.prefixes.find p = some ((b.prefixes.find p).getD 0) := by
      rw [hf, if_pos rfl]
    generalize (b.addUserNode p).2 = b1 at h1 ⊢
    unfold Base.addUserNode
    rw [h1]

/-- C20: removeUserNode. It removes exactly `p`, forgets the publication `p/seq` (the IBF of a
producer without hash collision is then the one of the remaining prefixes, see C21), and a second call
changes nothing. -/
theorem c20_remove (b b' : Base) (p : Name) (h : b.removeUserNode p = .ok b') :
    b'.getSeqNo p = none ∧ (∀ r, r ≠ p → b'.getSeqNo r = b.getSeqNo r) ∧
    (b.getSeqNo p = none → b' = b) ∧ b'.removeUserNode p = .ok b' := by
  have h1 := (Base.removeUserNode_ok h).1
  have hf : ∀ r, b'.prefixes.find r = if p = r then none else b.prefixes.find r := by
    intro r; rw [h1, NMap.find_erase]
  refine ⟨by rw [Base.getSeqNo, hf, if_pos rfl], fun r hr => ?_, fun hn => ?_, ?_⟩
  · rw [Base.getSeqNo, hf, if_neg (fun h => hr h.symm)]; rfl
  · unfold Base.removeUserNode at h
    rw [Base.getSeqNo] at hn
    simp only [hn, Res.ok.injEq] at h
    exact h.symm
  · unfold Base.removeUserNode
    rw [hf, if_pos rfl]

/-- C20 at the API of the two producers: the calls do exactly this to the base and nothing else. -/
theorem c20_calls (cfg : Cfg) (p : Name) :
    (∀ s : Full, Full.call cfg s (.addUserNode p) = .ok { s with base := (s.base.addUserNode p).2 }) ∧
    (∀ s s' : Full, Full.call cfg s (.removeUserNode p) = .ok s' →
      ∃ b, s.base.removeUserNode p = .ok b ∧ s' = { s with base := b }) ∧
    (∀ s : Part, Part.step cfg s (.addUserNode p) = .ok { s with base := (s.base.addUserNode p).2 }) ∧
    (∀ s s' : Part, Part.step cfg s (.removeUserNode p) = .ok s' →
      ∃ b, s.base.removeUserNode p = .ok b ∧ s' = { s with base := b }) := by
  refine ⟨fun _ => rfl, fun s s' h => ?_, fun _ => rfl, fun s s' h => ?_⟩
  · simp only [Full.call, Res.bind_eq_ok, Res.ok.injEq] at h
    obtain ⟨b, h1, rfl⟩ := h; exact ⟨b, h1, rfl⟩
  · simp only [Part.step, Res.bind_eq_ok, Res.ok.injEq] at h
    obtain ⟨b, h1, rfl⟩ := h; exact ⟨b, h1, rfl⟩

/-- Non-vacuity for C20: register, publish, remove, register again starts from 0. -/
example : ((Part.run sampleCfg (Part.init sampleCfg)
      [.addUserNode pA, .addUserNode pB, .publishName pA (some 5), .publishName pB none, .removeUserNode pA,
       .addUserNode pA]).get?.map
      (fun s => (s.base.getSeqNo pA, s.base.getSeqNo pB))) = some (some 0, some 1) := by
  decide +kernel

/-! ### C21 -/

/-- The full claim C21. -/
def Spec.IbfAlwaysExact : Prop :=
  ∀ (cfg : Cfg), 0 < cfg.expected →
    (∀ s, Full.Reach cfg s → IbfExact cfg.expected s.base.getSeqNo s.base.iblt) ∧
    (∀ s, Part.Reach cfg s → IbfExact cfg.expected s.base.getSeqNo s.base.iblt)

/-- C21, partial: exact as long as the publications that were current together never had equal 32-bit
hashes (missing: without that hypothesis the claim is false, `c21_false`). -/
theorem c21_ibf_exact_partial (cfg : Cfg) (he : 0 < cfg.expected) :
    (∀ s, Full.Reach cfg s → CollisionFree s.base.hist → IbfExact cfg.expected s.base.getSeqNo s.base.iblt) ∧
    (∀ s, Part.Reach cfg s → CollisionFree s.base.hist → IbfExact cfg.expected s.base.getSeqNo s.base.iblt) :=
  ⟨fun _ h hc => (Full.reach_exact h hc).ibfExact he (Full.reach_inv h),
   fun _ h hc => (Part.reach_exact h hc).ibfExact he (Part.reach_inv h)⟩

/-- /xvm and /akqi: the hashes of /xvm/1 and /akqi/1 are equal. -/
def pX : Name := nameOf [120, 118, 109]
def pY : Name := nameOf [97, 107, 113, 105]

/-- Publish /xvm/1, /akqi/1, /akqi/2. -/
def collisionOps : List Part.Op :=
  [.addUserNode pX, .publishName pX none, .addUserNode pY, .publishName pY none, .publishName pY none]

theorem collision : murmurName 11#32 (Name.appendNumber pX 1) = murmurName 11#32 (Name.appendNumber pY 1) := by
  decide +kernel

/-- The IBF after `collisionOps`: one key twice, one key once. -/
theorem collision_run : ∃ s, Part.run sampleCfg (Part.init sampleCfg) collisionOps = .ok s ∧
    s.base.prefixes = [(pX, 1), (pY, 2)] ∧
    build 4 [.ins (murmurName 11#32 (Name.appendNumber pX 1)), .ins (murmurName 11#32 (Name.appendNumber pX 1)),
      .ins (murmurName 11#32 (Name.appendNumber pY 2))] = .ok s.base.iblt := by
  have h : ∃ s, Part.run sampleCfg (Part.init sampleCfg) collisionOps = .ok s := by
    have : (Part.run sampleCfg (Part.init sampleCfg) collisionOps).get?.isSome = true := by decide +kernel
    cases hr : Part.run sampleCfg (Part.init sampleCfg) collisionOps with
    | ok s => exact ⟨s, rfl⟩
    | throw e => rw [hr] at this; simp [Res.get?] at this
    | ub u => rw [hr] at this; simp [Res.get?] at this
    | hang => rw [hr] at this; simp [Res.get?] at this
  obtain ⟨s, hs⟩ := h
  have h1 : (Part.run sampleCfg (Part.init sampleCfg) collisionOps).get?.map (fun s => s.base.prefixes)
      = some [(pX, 1), (pY, 2)] := by decide +kernel
  have h2 : (Part.run sampleCfg (Part.init sampleCfg) collisionOps).get?.map (fun s => s.base.iblt)
      = (build 4 [.ins (murmurName 11#32 (Name.appendNumber pX 1)), .ins (murmurName 11#32 (Name.appendNumber pX 1)),
      .ins (murmurName 11#32 (Name.appendNumber pY 2))]).get? := by decide +kernel
  rw [hs] at h1 h2
  refine ⟨s, hs, by simpa [Res.get?] using h1, ?_⟩
  simp only [Res.get?, Option.map_some] at h2
  split at h2
  · cases h2; assumption
  · simp at h2

theorem perm_pair {α : Type} {a b : α} (hab : a ≠ b) {L : List α} (hL : L.Nodup) (hm : ∀ x, x ∈ L ↔ x = a ∨ x = b) :
    L = [a, b] ∨ L = [b, a] := by
  have : L.Perm [a, b] := by
    rw [List.perm_ext_iff_of_nodup hL (by simp [hab])]
    intro x; rw [hm]; simp
  have hl := this.length_eq
  match L, hl with
  | [x, y], _ =>
    have hx := (hm x).mp (by simp)
    have hy := (hm y).mp (by simp)
    have hxy : x ≠ y := by simpa using hL
    rcases hx with rfl | rfl <;> rcases hy with rfl | rfl
    · exact absurd rfl hxy
    · exact Or.inl rfl
    · exact Or.inr rfl
    · exact absurd rfl hxy

theorem getSeqNo_collision {s : Part} (h : s.base.prefixes = [(pX, 1), (pY, 2)]) (n : Name) :
    IsLive s.base.getSeqNo n ↔ n = Name.appendNumber pX 1 ∨ n = Name.appendNumber pY 2 := by
  have hf : ∀ p, s.base.getSeqNo p = if pX = p then some 1 else if pY = p then some 2 else none := by
    intro p
    rw [Base.getSeqNo, h]
    rw [NMap.find_cons, NMap.find_cons, NMap.find_nil]
  have hxy : pX ≠ pY := by decide
  constructor
  · rintro ⟨p, q, hp, _, rfl⟩
    rw [hf] at hp
    split at hp
    · rename_i h; subst h; cases hp; exact Or.inl rfl
    · split at hp
      · rename_i h; subst h; cases hp; exact Or.inr rfl
      · simp at hp
  · rintro (rfl | rfl)
    · exact ⟨pX, 1, by rw [hf, if_pos rfl], by decide, rfl⟩
    · exact ⟨pY, 2, by rw [hf, if_neg hxy, if_pos rfl], by decide, rfl⟩

/-- C21 is false: after publishing /xvm/1, /akqi/1 and /akqi/2 the IBF still contains the key of
/xvm/1 twice, because the hashes of /xvm/1 and /akqi/1 coincide. -/
theorem c21_false : ¬ Spec.IbfAlwaysExact := by
  intro h
  obtain ⟨s, hs, hp, hb⟩ := collision_run
  obtain ⟨L, hL, hm, hbl⟩ := (h sampleCfg (by decide)).2 s ⟨collisionOps, hs⟩
  have hm' : ∀ n, n ∈ L ↔ n = Name.appendNumber pX 1 ∨ n = Name.appendNumber pY 2 :=
    fun n => (hm n).trans (getSeqNo_collision hp n)
  rw [← hb] at hbl
  have hne : Name.appendNumber pX 1 ≠ Name.appendNumber pY 2 := by decide
  rcases perm_pair hne hL hm' with rfl | rfl
  · exact absurd hbl (by decide +kernel)
  · exact absurd hbl (by decide +kernel)

/-! ### C22 -/

/-- The full claim C22, for two producers of any kind: same latest publications, same IBF, empty
difference. -/
def Spec.SameDataSameIbf : Prop :=
  ∀ (cfg cfg' : Cfg) (s s' : Part), 0 < cfg.expected → cfg'.expected = cfg.expected →
    Part.Reach cfg s → Part.Reach cfg' s' →
    (∀ n, IsLive s.base.getSeqNo n ↔ IsLive s'.base.getSeqNo n) → s.base.iblt = s'.base.iblt

/-- Two exact IBFs for the same publications are equal. -/
theorem ibfExact_unique {e : Nat} {g g' : Name → Option Nat} {t t' : Table} (h : IbfExact e g t)
    (h' : IbfExact e g' t') (hl : ∀ n, IsLive g n ↔ IsLive g' n) : t = t' := by
  obtain ⟨L, hn, hm, hb⟩ := h
  obtain ⟨L', hn', hm', hb'⟩ := h'
  have hp : L.Perm L' := (List.perm_ext_iff_of_nodup hn hn').mpr (fun n => by rw [hm, hm', hl])
  refine (c01_net_effect e _ _ t t' hb hb' ?_).1
  intro k
  have hp2 := hp.map (fun n => KeyOp.ins (murmurName 11#32 n))
  generalize L.map (fun n => KeyOp.ins (murmurName 11#32 n)) = A at hp2
  generalize L'.map (fun n => KeyOp.ins (murmurName 11#32 n)) = A' at hp2
  clear hb hb' hm hm' hn hn' hp
  induction hp2 with
  | nil => rfl
  | cons x _ ih => cases x <;> simp only [net, ih]
  | swap x y l => cases x <;> cases y <;> simp only [net] <;> omega
  | trans _ _ ih1 ih2 => exact ih1.trans ih2

/-- C22, partial: two producers (each of either kind, `b` and `b'` are their bases) with the same
capacity, the same latest publications and no hash collision in their histories have equal IBFs, and the
difference computed from them is empty (missing: histories with a hash collision, `c22_false`). -/
theorem c22_same_ibf_partial (cfg cfg' : Cfg) (he : 0 < cfg.expected) (he' : cfg'.expected = cfg.expected)
    (b b' : Base)
    (hb : (∃ s, Full.Reach cfg s ∧ s.base = b) ∨ (∃ s, Part.Reach cfg s ∧ s.base = b))
    (hb' : (∃ s, Full.Reach cfg' s ∧ s.base = b') ∨ (∃ s, Part.Reach cfg' s ∧ s.base = b'))
    (hc : CollisionFree b.hist) (hc' : CollisionFree b'.hist)
    (hsame : ∀ p s, s ≠ 0 → (b.getSeqNo p = some s ↔ b'.getSeqNo p = some s)) :
    b.iblt = b'.iblt ∧ (∀ cdc : Codec, b.iblt.toComponent cdc = b'.iblt.toComponent cdc) ∧
      ∀ fuel, 0 < fuel → Table.diff fuel b.iblt b'.iblt = .ok ⟨true, [], []⟩ := by
  have key : ∀ (cfg : Cfg), 0 < cfg.expected → ∀ b : Base,
      (∃ s, Full.Reach cfg s ∧ s.base = b) ∨ (∃ s, Part.Reach cfg s ∧ s.base = b) → CollisionFree b.hist →
      IbfExact cfg.expected b.getSeqNo b.iblt := by
    intro cfg he b hb hc
    rcases hb with ⟨s, h, rfl⟩ | ⟨s, h, rfl⟩
    · exact (c21_ibf_exact_partial cfg he).1 s h hc
    · exact (c21_ibf_exact_partial cfg he).2 s h hc
  have h1 := key cfg he b hb hc
  have h2 := key cfg' (he' ▸ he) b' hb' hc'
  rw [he'] at h2
  have heq : b.iblt = b'.iblt := by
    apply ibfExact_unique h1 h2
    intro n
    constructor
    · rintro ⟨p, s, hp, hs, rfl⟩; exact ⟨p, s, (hsame p s hs).mp hp, hs, rfl⟩
    · rintro ⟨p, s, hp, hs, rfl⟩; exact ⟨p, s, (hsame p s hs).mpr hp, hs, rfl⟩
  refine ⟨heq, fun cdc => by rw [heq], fun fuel hf => ?_⟩
  rw [← heq]
  obtain ⟨f, rfl⟩ : ∃ f, fuel = f + 1 := ⟨fuel - 1, by omega⟩
  exact c09_equal_decodes f b.iblt

/-- C22 is false: reaching {/xvm: 1, /akqi: 2} through /akqi/1 or directly gives different IBFs. -/
theorem c22_false : ¬ Spec.SameDataSameIbf := by
  intro h
  obtain ⟨s, hs, hp, hb⟩ := collision_run
  have hr : ∃ s', Part.run sampleCfg (Part.init sampleCfg)
      [.addUserNode pX, .publishName pX none, .addUserNode pY, .publishName pY (some 2)] = .ok s' ∧
      s'.base.prefixes = [(pX, 1), (pY, 2)] ∧
      some s'.base.iblt = (build 4 [.ins (murmurName 11#32 (Name.appendNumber pX 1)),
        .ins (murmurName 11#32 (Name.appendNumber pY 2))]).get? := by
    have h1 : (Part.run sampleCfg (Part.init sampleCfg)
      [.addUserNode pX, .publishName pX none, .addUserNode pY, .publishName pY (some 2)]).get?.map
        (fun s => (s.base.prefixes, some s.base.iblt))
      = some ([(pX, 1), (pY, 2)], (build 4 [.ins (murmurName 11#32 (Name.appendNumber pX 1)),
        .ins (murmurName 11#32 (Name.appendNumber pY 2))]).get?) := by decide +kernel
    cases hr : Part.run sampleCfg (Part.init sampleCfg)
      [.addUserNode pX, .publishName pX none, .addUserNode pY, .publishName pY (some 2)] with
    | ok s' =>
      rw [hr] at h1
      simp only [Res.get?, Option.map_some, Option.some.injEq, Prod.mk.injEq] at h1
      exact ⟨s', rfl, h1.1, by rw [h1.2]; rfl⟩
    | throw e => rw [hr] at h1; simp [Res.get?] at h1
    | ub u => rw [hr] at h1; simp [Res.get?] at h1
    | hang => rw [hr] at h1; simp [Res.get?] at h1
  obtain ⟨s', hs', hp', hb'⟩ := hr
  have heq := h sampleCfg sampleCfg s s' (by decide) rfl ⟨_, hs⟩ ⟨_, hs'⟩
    (fun n => (getSeqNo_collision hp n).trans (getSeqNo_collision hp' n).symm)
  rw [← heq] at hb'
  have h3 : (build 4 [.ins (murmurName 11#32 (Name.appendNumber pX 1)), .ins (murmurName 11#32 (Name.appendNumber pX 1)),
      .ins (murmurName 11#32 (Name.appendNumber pY 2))]).get? = some s.base.iblt := by rw [hb]; rfl
  rw [← h3] at hb'
  exact absurd hb' (by decide +kernel)

/-! Non-vacuity for C21 and C22 -/

theorem distinctHashes_of_nodup (m : NMap Nat)
    (h : (((m.filter (fun e => e.2 ≠ 0)).map (fun e => murmurName 11#32 (Name.appendNumber e.1 e.2))).Nodup)) :
    DistinctHashes m.find := by
  have inj : ∀ {l : List (Name × Nat)} {a b : Name × Nat},
      (l.map (fun e => murmurName 11#32 (Name.appendNumber e.1 e.2))).Nodup → a ∈ l → b ∈ l →
      murmurName 11#32 (Name.appendNumber a.1 a.2) = murmurName 11#32 (Name.appendNumber b.1 b.2) → a = b :=
    fun hn ha hb hab => List.inj_on_of_nodup_map hn ha hb hab
  rintro n n' ⟨p, x, hp, hx, rfl⟩ ⟨p', x', hp', hx', rfl⟩ hh
  have h1 : (p, x) ∈ m.filter (fun e => e.2 ≠ 0) := by simpa [hx] using NMap.mem_of_find hp
  have h2 : (p', x') ∈ m.filter (fun e => e.2 ≠ 0) := by simpa [hx'] using NMap.mem_of_find hp'
  cases inj h h1 h2 hh
  rfl

/-- A test for `CollisionFree`. -/
def checkHist (h : List BaseEv) : Bool :=
  h.all fun e =>
    match e with
    | .update _ _ _ m =>
      decide (((m.filter (fun e => e.2 ≠ 0)).map (fun e => murmurName 11#32 (Name.appendNumber e.1 e.2))).Nodup)
    | .remove .. => true

theorem collisionFree_of_check {h : List BaseEv} (hc : checkHist h = true) : CollisionFree h := by
  intro p o n m hm
  have := List.all_eq_true.mp hc _ hm
  exact distinctHashes_of_nodup m (of_decide_eq_true this)

/-- Two different histories of two different kinds of producer that end with /a = 2, /b = 1, both without
collision. -/
def histFull : List Full.Op :=
  [.call (.addUserNode pA), .call (.publishName pA none), .call (.addUserNode pB), .call (.publishName pA none),
   .call (.publishName pB none)]
def histPart : List Part.Op :=
  [.addUserNode pB, .publishName pB (some 9), .removeUserNode pB, .addUserNode pB, .publishName pB none,
   .addUserNode pA, .publishName pA (some 2)]

example : (Res.bind (Full.init sampleCfg) fun s => Full.run sampleCfg s histFull).get?.map
    (fun s => (s.base.prefixes, checkHist s.base.hist)) = some ([(pA, 2), (pB, 1)], true) := by decide +kernel
example : (Part.run sampleCfg (Part.init sampleCfg) histPart).get?.map
    (fun s => (s.base.prefixes, checkHist s.base.hist)) = some ([(pA, 2), (pB, 1)], true) := by decide +kernel
example : (Part.run sampleCfg (Part.init sampleCfg) histPart).get?.map (fun s => s.base.iblt)
    ≠ some (Table.new 4) := by decide +kernel

end PSync
