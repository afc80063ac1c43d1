import Verif.Proofs.IbltSpec
import Verif.Proofs.IbltAny
import Verif.Proofs.IbltRange
import Verif.Proofs.Murmur
import Verif.Proofs.Wire
/-!
Properties C01–C10: the IBF (`psync::detail::IBLT`).
-/
namespace PSync
open Spec

/-! ### Fidelity to the project's own test vectors (tests, not proofs) -/

/-- tests/test-iblt.cpp, tests/test-util.cpp: the name /test/memphis/1. -/
def sampleName : Name := [⟨8, [116, 101, 115, 116]⟩, ⟨8, [109, 101, 109, 112, 104, 105, 115]⟩, ⟨8, [1]⟩]

example : murmurName 11#32 sampleName = 0x5C5BF267#32 := by decide +kernel
example : murmur32 11#32 0x5C5BF267#32 = 0x4224EE6C#32 := by decide +kernel
example : [cellIdx 5 0 0x5C5BF267#32, cellIdx 5 1 0x5C5BF267#32, cellIdx 5 2 0x5C5BF267#32] = [2, 6, 13] := by
  decide +kernel

/-! ### C01 -/

theorem build_zero {ops : List KeyOp} {t : Table} (h : build 0 ops = .ok t) : ops = [] := by
  cases ops with
  | nil => rfl
  | cons o ops =>
    exfalso
    unfold build at h
    cases o <;>
      simp [foldRes, applyOp, Table.insert, Table.erase, ibltUpdate, Table.new, nCells, N_HASH] at h

/-- C01: two IBFs of the same capacity whose insert/erase histories have the same net effect per key are
equal and put the same component on the wire. -/
theorem c01_net_effect (expected : Nat) (ops ops' : List KeyOp) (t t' : Table)
    (h : build expected ops = .ok t) (h' : build expected ops' = .ok t')
    (hnet : ∀ k, net ops k = net ops' k) :
    t = t' ∧ ∀ cdc : Codec, t.toComponent cdc = t'.toComponent cdc := by
  have : t = t' := by
    rcases Nat.eq_zero_or_pos expected with rfl | he
    · have e := build_zero h
      have e' := build_zero h'
      subst e; subst e'
      rw [h] at h'
      exact Res.ok.inj h'
    · rw [build_ok he h, build_ok he h']
      apply tableOf_eq_of_net (opKeys_units _) (opKeys_units _)
      intro k
      rw [netOf_opKeys, netOf_opKeys, hnet]
  exact ⟨this, fun cdc => by rw [this]⟩

/-- C01: conversely, no call history of fewer than 2^31 operations leaves the int32 range, so the
previous theorem applies to all of them. -/
theorem c01_total (expected : Nat) (he : 0 < expected) (ops : List KeyOp) (hl : ops.length < 2147483648) :
    ∃ t, build expected ops = .ok t := ⟨_, build_of he hl⟩

/-- C01: `erase(k)` after `insert(k)` restores the IBF, and the other way round. -/
theorem c01_insert_erase (expected : Nat) (ops : List KeyOp) (t t1 t2 : Table) (k : U32)
    (h : build expected ops = .ok t) :
    (t.insert k = .ok t1 → t1.erase k = .ok t2 → t2 = t) ∧
    (t.erase k = .ok t1 → t1.insert k = .ok t2 → t2 = t) := by
  have snoc : ∀ (o o' : KeyOp) (t1 t2 : Table), applyOp t o = .ok t1 → applyOp t1 o' = .ok t2 →
      build expected (ops ++ [o, o']) = .ok t2 := by
    intro o o' t1 t2 h1 h2
    unfold build at h ⊢
    rw [foldRes_append, h, Res.ok_bind]
    simp only [foldRes, h1, h2, Res.ok_bind]
  have netapp : ∀ (ops ops' : List KeyOp) (k : U32), net (ops ++ ops') k = net ops k + net ops' k := by
    intro ops ops' k
    induction ops with
    | nil => simp [net]
    | cons o ops ih => cases o <;> simp only [List.cons_append, net, ih] <;> omega
  constructor
  · intro h1 h2
    refine (c01_net_effect expected _ _ _ _ (snoc (.ins k) (.del k) t1 t2 h1 h2) h ?_).1
    intro k'
    rw [netapp]
    simp only [net]
    by_cases hk : k = k' <;> simp [hk]
  · intro h1 h2
    refine (c01_net_effect expected _ _ _ _ (snoc (.del k) (.ins k) t1 t2 h1 h2) h ?_).1
    intro k'
    rw [netapp]
    simp only [net]
    by_cases hk : k = k' <;> simp [hk]

/-- Non-vacuity for C01: different histories, same net effect, and the table is not empty. -/
example : build 10 [.ins 5#32, .ins 7#32, .del 5#32] = build 10 [.del 9#32, .ins 7#32, .ins 9#32] := by
  decide +kernel
example : build 10 [.ins 7#32] ≠ build 10 [] := by decide +kernel

/-! ### C02 -/

/-- C02: `initialize` on the appended component gives back the IBF. -/
theorem c02_round_trip (cdc : Codec) (hc : cdc.Lossless) (expected : Nat) (t : Table)
    (hl : t.length = nCells expected) (hr : ∀ c ∈ t, inI32 c.count = true) :
    ∃ comp, t.toComponent cdc = .ok comp ∧ Table.initialize cdc expected comp = .ok t := by
  obtain ⟨y, h1, h2⟩ := hc t.encode
  refine ⟨⟨TlvType.generic, y⟩, by simp [Table.toComponent, h1, Res.ofOption], ?_⟩
  unfold Table.initialize
  simp only [h2, Res.ofOption, Res.ok_bind]
  rw [if_neg (by rw [Table.encode_length, hl]; simp [ENTRY_SIZE]), ← hl, Table.decode_encode t hr]

/-- C02: exactly the components that decompress to 12 bytes per cell are accepted; every other one
raises an exception (never undefined behaviour). -/
theorem c02_accepts (cdc : Codec) (expected : Nat) (comp : Component) :
    ((∃ t, Table.initialize cdc expected comp = .ok t) ↔
      ∃ bs, cdc.decompress comp.value = some bs ∧ bs.length = 12 * (3 * buckets expected)) ∧
    ((∃ t, Table.initialize cdc expected comp = .ok t) ∨
      ∃ e, Table.initialize cdc expected comp = .throw e) := by
  unfold Table.initialize
  rw [nCells_eq]
  cases hd : cdc.decompress comp.value with
  | none => simp [Res.ofOption]
  | some bs =>
    simp only [Res.ofOption, Res.ok_bind]
    by_cases hl : bs.length = ENTRY_SIZE * (3 * buckets expected)
    · rw [if_neg (not_not_intro hl)]
      exact ⟨⟨fun _ => ⟨bs, rfl, hl⟩, fun _ => ⟨_, rfl⟩⟩, Or.inl ⟨_, rfl⟩⟩
    · rw [if_pos hl]
      refine ⟨⟨fun ⟨t, ht⟩ => by simp at ht, fun ⟨bs', hb, hb'⟩ => ?_⟩, Or.inr ⟨_, rfl⟩⟩
      cases hb
      exact absurd hb' hl

/-- C02: what is accepted is a table of the right size with int32 counts that stands for exactly the
received bytes (so two accepted components with the same table decompress to the same bytes). -/
theorem c02_faithful (cdc : Codec) (expected : Nat) (comp : Component) (t : Table)
    (h : Table.initialize cdc expected comp = .ok t) :
    t.length = 3 * buckets expected ∧ (∀ c ∈ t, inI32 c.count = true) ∧
      cdc.decompress comp.value = some t.encode := by
  unfold Table.initialize at h
  cases hd : cdc.decompress comp.value with
  | none => rw [hd] at h; simp [Res.ofOption] at h
  | some bs =>
    rw [hd] at h
    simp only [Res.ofOption, Res.ok_bind] at h
    split at h
    · simp at h
    · rename_i hl
      simp only [ne_eq, not_not, ENTRY_SIZE] at hl
      simp only [Res.ok.injEq] at h
      subst h
      exact ⟨by rw [Table.decode_length, nCells_eq], Table.decode_inI32 _ _, by rw [Table.encode_decode _ _ hl]⟩

/-- Non-vacuity for C02: a table with a negative count, and a rejected component. -/
example : Table.initialize Codec.none 1
    ⟨8, Table.encode [⟨-3, 7#32, 9#32⟩, ⟨0, 0#32, 0#32⟩, ⟨2147483647, 1#32, 2#32⟩]⟩
    = .ok [⟨-3, 7#32, 9#32⟩, ⟨0, 0#32, 0#32⟩, ⟨2147483647, 1#32, 2#32⟩] := by decide +kernel
example : Table.initialize Codec.none 1 ⟨8, [1, 2, 3]⟩ = .throw .iblt := by decide +kernel
example : Codec.none.Lossless := fun x => ⟨x, rfl, rfl⟩

/-! ### C03 -/

/-- The full claim C03. -/
def Spec.DiffExact : Prop :=
  ∀ (expected : Nat) (A B : List U32) (l r : Table) (fuel : Nat) (d : IBLTDiff), 0 < expected →
    HoldsSet expected l A → HoldsSet expected r B → Table.diff fuel l r = .ok d → d.canDecode = true →
    (∀ k, k ∈ d.positive ↔ k ∈ A ∧ k ∉ B) ∧ (∀ k, k ∈ d.negative ↔ k ∈ B ∧ k ∉ A)

theorem holds_of_build {e : Nat} {t : Table} {A : List U32} (hA : A.Nodup)
    (h : build e (A.map KeyOp.ins) = .ok t) : HoldsSet e t A := by
  refine ⟨hA, _, h, ?_⟩
  intro k
  clear h
  induction A with
  | nil => simp [net]
  | cons a A ih =>
    have h1 := List.nodup_cons.mp hA
    simp only [List.map_cons, net, ih h1.2, List.mem_cons]
    by_cases hk : a = k
    · subst hk; simp [h1.1]
    · have : ¬ k = a := fun h => hk h.symm
      simp [hk, this]

/-- C03 is false: the 32-bit check can be fooled. The IBFs of {54390, 54391} and {84916} "decode" to the
single key 84917, which neither side holds. -/
theorem c03_false : ¬ Spec.DiffExact := by
  intro h
  obtain ⟨l, hl⟩ : ∃ l, build 1 ([54390#32, 54391#32].map KeyOp.ins) = .ok l := ⟨_, build_of (by omega) (by simp)⟩
  obtain ⟨r, hr⟩ : ∃ r, build 1 ([84916#32].map KeyOp.ins) = .ok r := ⟨_, build_of (by omega) (by simp)⟩
  have hd : Res.bind (build 1 ([54390#32, 54391#32].map KeyOp.ins)) (fun l =>
      Res.bind (build 1 ([84916#32].map KeyOp.ins)) (fun r => Table.diff 5 l r))
      = .ok ⟨true, [84917#32], []⟩ := by decide +kernel
  rw [hl, hr, Res.ok_bind, Res.ok_bind] at hd
  have := (h 1 _ _ l r 5 _ (by omega) (holds_of_build (by decide) hl) (holds_of_build (by decide) hr) hd rfl).1 84917#32
  simp at this

/-- C03, partial: exact whenever the 32-bit checksum does not collide on the keys that differ
(missing: unconditional exactness, which `c03_false` refutes; and differences of 2^31-1 or more keys). -/
theorem c03_diff_exact_partial (expected : Nat) (he : 0 < expected) (A B : List U32) (l r : Table)
    (fuel : Nat) (d : IBLTDiff) (hl : HoldsSet expected l A) (hr : HoldsSet expected r B)
    (hlen : diffCount A B < 2147483647) (hcs : NoChecksumCollision expected A B)
    (hd : Table.diff fuel l r = .ok d) (hdec : d.canDecode = true) :
    (∀ k, k ∈ d.positive ↔ k ∈ A ∧ k ∉ B) ∧ (∀ k, k ∈ d.negative ↔ k ∈ B ∧ k ∉ A) ∧
      d.positive.Nodup ∧ d.negative.Nodup := by
  obtain ⟨R, _, _, hR, hp, hn, hap, han, _⟩ :=
    diff_sets he hl hr hlen (noFalsePure_of_spec hl.1 hr.1 hcs) hd
  have hR' := hR.mp hdec
  subst hR'
  exact ⟨fun k => by simpa using hp k, fun k => by simpa using hn k, hap.nodup, han.nodup⟩

/-! ### C04 -/

theorem ascending_single {s : List U32} {k : U32} (hs : Ascending s) (h : ∀ x, x ∈ s ↔ x = k) : s = [k] := by
  have hn := hs.nodup
  match s, hn with
  | [], _ => exact absurd ((h k).mpr rfl) (by simp)
  | [x], _ => rw [(h x).mp (by simp)]
  | x :: y :: s, hn =>
    have h1 := (h x).mp (by simp)
    have h2 := (h y).mp (by simp)
    subst h1; subst h2
    simp at hn

theorem diffCount_cons {A : List U32} {k : U32} (hk : k ∉ A) :
    diffCount (k :: A) A = 1 ∧ diffCount A (k :: A) = 1 := by
  have h1 : A.filter (fun x => decide (x ∉ A)) = [] := by simp
  have h2 : A.filter (fun x => decide (x ∉ k :: A)) = [] := by
    rw [List.filter_eq_nil_iff]
    intro a ha
    simp [ha]
  have h3 : (k :: A).filter (fun x => decide (x ∉ A)) = [k] := by
    rw [List.filter_cons, if_pos (by simpa using hk), h1]
  exact ⟨by rw [diffCount, h3, h2]; rfl, by rw [diffCount, h3, h2]; rfl⟩

/-- C04: if the right side misses exactly one key `k` of the left side, the difference decodes and is
exactly `k`, however many keys (`A`) are shared; and symmetrically. -/
theorem c04_single_key (expected : Nat) (he : 0 < expected) (A : List U32) (k : U32) (hk : k ∉ A)
    (l r : Table) (hl : HoldsSet expected l (k :: A)) (hr : HoldsSet expected r A) (fuel : Nat)
    (hf : 2 ≤ fuel) :
    Table.diff fuel l r = .ok ⟨true, [k], []⟩ ∧ Table.diff fuel r l = .ok ⟨true, [], [k]⟩ := by
  obtain ⟨c1, c2⟩ := diffCount_cons hk
  have nstop : ∀ {D R : List (Int × U32)}, D.length ≤ 1 → R.Sublist D → StopSet (buckets expected) R → R = [] := by
    intro D R hD hsub hst
    have hl := hsub.length_le
    match R, hl with
    | [], _ => rfl
    | [x], _ =>
      exfalso
      have := inCell_first (buckets_pos he) (R := [x]) (e := x) (by simp)
      have h1 := hst (cellIdx (buckets expected) 0 x.2)
      have h2 : (inCell (buckets expected) [x] (cellIdx (buckets expected) 0 x.2)).length ≤ 1 :=
        List.length_filter_le _ _
      have h3 := List.length_pos_of_mem this.2
      omega
    | _ :: _ :: _, hl => simp at hl; omega
  constructor
  · have hS : NoFalsePure (buckets expected) (diffKeys (k :: A) A) :=
      noFalsePure_two (diffKeys_units _ _) (diffKeys_snd_nodup hl.1 hr.1) (by rw [diffKeys_length, c1]; omega)
    obtain ⟨d, hd⟩ := diff_sets_total he hl hr (by omega) hS (fuel := fuel) (by omega)
    obtain ⟨R, hsub, hst, hR, hp, hn, hap, han, _⟩ := diff_sets he hl hr (by omega) hS hd
    have hRn := nstop (D := diffKeys (k :: A) A) (by rw [diffKeys_length]; omega) hsub hst
    subst hRn
    rw [hd]
    have e1 : d.positive = [k] := ascending_single hap (by
      intro x; rw [hp]; constructor
      · rintro ⟨⟨h1, h2⟩, _⟩
        rcases List.mem_cons.mp h1 with h | h
        · exact h
        · exact absurd h h2
      · rintro rfl; simp [hk])
    have e2 : d.negative = [] := by
      rw [List.eq_nil_iff_forall_not_mem]
      intro x hx
      have := ((hn x).mp hx).1
      exact this.2 (List.mem_cons_of_mem _ this.1)
    have e3 : d.canDecode = true := hR.mpr rfl
    obtain ⟨dc, dp, dn⟩ := d
    simp only at e1 e2 e3
    rw [e1, e2, e3]
  · have hS : NoFalsePure (buckets expected) (diffKeys A (k :: A)) :=
      noFalsePure_two (diffKeys_units _ _) (diffKeys_snd_nodup hr.1 hl.1) (by rw [diffKeys_length, c2]; omega)
    obtain ⟨d, hd⟩ := diff_sets_total he hr hl (by omega) hS (fuel := fuel) (by omega)
    obtain ⟨R, hsub, hst, hR, hp, hn, hap, han, _⟩ := diff_sets he hr hl (by omega) hS hd
    have hRn := nstop (D := diffKeys A (k :: A)) (by rw [diffKeys_length]; omega) hsub hst
    subst hRn
    rw [hd]
    have e1 : d.negative = [k] := ascending_single han (by
      intro x; rw [hn]; constructor
      · rintro ⟨⟨h1, h2⟩, _⟩
        rcases List.mem_cons.mp h1 with h | h
        · exact h
        · exact absurd h h2
      · rintro rfl; simp [hk])
    have e2 : d.positive = [] := by
      rw [List.eq_nil_iff_forall_not_mem]
      intro x hx
      have := ((hp x).mp hx).1
      exact this.2 (List.mem_cons_of_mem _ this.1)
    have e3 : d.canDecode = true := hR.mpr rfl
    obtain ⟨dc, dp, dn⟩ := d
    simp only at e1 e2 e3
    rw [e1, e2, e3]

/-- Non-vacuity for C04: capacity 1, ten shared keys. -/
example : ∃ l r, HoldsSet 1 l ([100#32, 1#32, 2#32, 3#32, 4#32, 5#32, 6#32, 7#32, 8#32, 9#32, 10#32]) ∧
    HoldsSet 1 r [1#32, 2#32, 3#32, 4#32, 5#32, 6#32, 7#32, 8#32, 9#32, 10#32] ∧
    Table.diff 2 l r = .ok ⟨true, [100#32], []⟩ := by
  have hl := holds_of_build (e := 1) (A := [100#32, 1#32, 2#32, 3#32, 4#32, 5#32, 6#32, 7#32, 8#32, 9#32, 10#32])
    (by decide) (build_of (by omega) (by simp))
  have hr := holds_of_build (e := 1) (A := [1#32, 2#32, 3#32, 4#32, 5#32, 6#32, 7#32, 8#32, 9#32, 10#32])
    (by decide) (build_of (by omega) (by simp))
  exact ⟨_, _, hl, hr, (c04_single_key 1 (by omega) _ _ (by decide) _ _ hl hr 2 (by omega)).1⟩

/-! ### C05 -/

/-- C05: without checksum collision the difference decodes exactly when there is no stopping set, and
everything it reports, decoded or not, is a true difference on the right side. -/
theorem c05_decodes_iff (expected : Nat) (he : 0 < expected) (A B : List U32) (l r : Table)
    (fuel : Nat) (d : IBLTDiff) (hl : HoldsSet expected l A) (hr : HoldsSet expected r B)
    (hlen : diffCount A B < 2147483647) (hcs : NoChecksumCollision expected A B)
    (hd : Table.diff fuel l r = .ok d) :
    (d.canDecode = true ↔ ¬ ∃ S, StoppingSet expected A B S) ∧
    (∀ k ∈ d.positive, k ∈ A ∧ k ∉ B) ∧ (∀ k ∈ d.negative, k ∈ B ∧ k ∉ A) := by
  obtain ⟨R, hsub, hst, hR, hp, hn, _, _, hstop⟩ :=
    diff_sets he hl hr hlen (noFalsePure_of_spec hl.1 hr.1 hcs) hd
  refine ⟨⟨?_, ?_⟩, fun k hk => ((hp k).mp hk).1, fun k hk => ((hn k).mp hk).1⟩
  · rintro hdec ⟨S, hS⟩
    exact hstop S hS (hR.mp hdec)
  · intro hno
    rw [hR]
    by_contra hne
    exact hno ⟨_, spec_of_stopSet hl.1 hr.1 hsub hst hne⟩

/-- C05: with a budget above the number of differing keys the computation ends. -/
theorem c05_total (expected : Nat) (he : 0 < expected) (A B : List U32) (l r : Table)
    (fuel : Nat) (hl : HoldsSet expected l A) (hr : HoldsSet expected r B)
    (hlen : diffCount A B < 2147483647) (hcs : NoChecksumCollision expected A B)
    (hf : diffCount A B < fuel) : ∃ d, Table.diff fuel l r = .ok d :=
  diff_sets_total he hl hr hlen (noFalsePure_of_spec hl.1 hr.1 hcs) hf

theorem noCollision_two {e : Nat} {A B : List U32} (h : diffCount A B ≤ 2) : NoChecksumCollision e A B := by
  rintro j P N ⟨hP, hN, hPA, hNB⟩
  have hp : P.length ≤ (A.filter (fun k => k ∉ B)).length :=
    (List.subperm_of_subset hP (fun k hk => by simpa using ⟨(hPA k hk).1, (hPA k hk).2.1⟩)).length_le
  have hn : N.length ≤ (B.filter (fun k => k ∉ A)).length :=
    (List.subperm_of_subset hN (fun k hk => by simpa using ⟨(hNB k hk).1, (hNB k hk).2.1⟩)).length_le
  unfold diffCount at h
  constructor
  · intro hc _; omega
  · intro hc hx _
    match P, N, hc with
    | [], _, _ => rfl
    | [p], [n], _ =>
      exfalso
      simp [xorAll] at hx
      have h1 := hPA p (by simp)
      have h2 := hNB n (by simp)
      subst hx
      exact h1.2.1 h2.1
    | _ :: _ :: _, _, hc => exfalso; simp only [List.length_cons] at hc hp hn; omega

/-- C05 applies without any assumption on checksums to differences of up to two keys: they decode
unless the two keys share all three cells. -/
theorem c05_two_keys (expected : Nat) (he : 0 < expected) (A B : List U32) (l r : Table)
    (fuel : Nat) (d : IBLTDiff) (hl : HoldsSet expected l A) (hr : HoldsSet expected r B)
    (h2 : diffCount A B ≤ 2) (hd : Table.diff fuel l r = .ok d) :
    (d.canDecode = true ↔ ¬ ∃ S, StoppingSet expected A B S) ∧
    (d.canDecode = true → (∀ k, k ∈ d.positive ↔ k ∈ A ∧ k ∉ B) ∧ (∀ k, k ∈ d.negative ↔ k ∈ B ∧ k ∉ A)) := by
  refine ⟨(c05_decodes_iff expected he A B l r fuel d hl hr (by omega) (noCollision_two h2) hd).1, fun h => ?_⟩
  obtain ⟨a, b, _⟩ := c03_diff_exact_partial expected he A B l r fuel d hl hr (by omega) (noCollision_two h2) hd h
  exact ⟨a, b⟩

/-- Non-vacuity for C03/C05: a pair with no collision that decodes, and one with a stopping set
(capacity 1: two keys share all three cells). -/
example : NoChecksumCollision 80 [1#32, 2#32, 3#32] [2#32, 3#32, 4#32] := noCollision_two (by decide)
example : Res.bind (build 80 [.ins 1#32, .ins 2#32, .ins 3#32]) (fun l =>
    Res.bind (build 80 [.ins 2#32, .ins 3#32, .ins 4#32]) (fun r => Table.diff 5 l r))
    = .ok ⟨true, [1#32], [4#32]⟩ := by decide +kernel
example : StoppingSet 1 [1#32, 2#32] [] [1#32, 2#32] := by
  have hc : ∀ k, cellsOf 1 k = [0, 1, 2] := fun k => by simp [cellsOf, buckets, Nat.mod_one]
  refine ⟨by simp, by decide, by simp, ?_⟩
  intro k hk j hj
  rw [hc] at hj
  rcases List.mem_cons.mp hk with rfl | hk
  · exact ⟨2#32, by simp, by decide, by rw [hc]; exact hj⟩
  · rw [List.mem_singleton.mp hk]
    exact ⟨1#32, by simp, by decide, by rw [hc]; exact hj⟩
example : Res.bind (build 1 [.ins 1#32, .ins 2#32]) (fun l => Table.diff 5 l (Table.new 1))
    = .ok ⟨false, [], []⟩ := by decide +kernel

/-! ### C06 -/

/-- C06: swapping the operands swaps the two sets and keeps the verdict, for arbitrary cell contents. -/
theorem c06_antisymmetric (expected : Nat) (he : 0 < expected) (l r : Table)
    (hl : l.length = 3 * buckets expected) (fuel : Nat) (d d' : IBLTDiff)
    (h : Table.diff fuel l r = .ok d) (h' : Table.diff fuel r l = .ok d') :
    d'.canDecode = d.canDecode ∧ d'.positive = d.negative ∧ d'.negative = d.positive := by
  rw [diff_swap (buckets_pos he) hl h h']
  exact ⟨rfl, rfl, rfl⟩

/-- Non-vacuity for C06: a crafted table (a count of 5 in one cell) against a real one. -/
example : Table.diff 5 [⟨1, 7#32, murmur32 11#32 7#32⟩, ⟨5, 7#32, 3#32⟩, ⟨1, 7#32, murmur32 11#32 7#32⟩] (Table.new 1)
    = .ok ⟨false, [7#32], []⟩ := by decide +kernel
example : Table.diff 5 (Table.new 1) [⟨1, 7#32, murmur32 11#32 7#32⟩, ⟨5, 7#32, 3#32⟩, ⟨1, 7#32, murmur32 11#32 7#32⟩]
    = .ok ⟨false, [], [7#32]⟩ := by decide +kernel

/-! ### C07 -/

theorem holdsSet_counts {e : Nat} (he : 0 < e) {t : Table} {A : List U32} (h : HoldsSet e t A) :
    t.length = 3 * buckets e ∧ ∀ c ∈ t, 0 ≤ c.count := by
  rw [holdsSet_table he h]
  refine ⟨by simp, ?_⟩
  intro c hc
  unfold tableOf at hc
  obtain ⟨j, _, rfl⟩ := List.mem_map.mp hc
  have : ∀ D : List (Int × U32), (∀ x ∈ D, x.1 = 1) → 0 ≤ (sumCell D).count := by
    intro D
    induction D with
    | nil => intro _; simp [sumCell, Cell.zero]
    | cons x D ih =>
      intro hx
      have h1 := ih (fun y hy => hx y (by simp [hy]))
      have h2 := hx x (by simp)
      simp only [sumCell, Cell.add]
      omega
  apply this
  intro x hx
  have := (List.mem_filter.mp hx).1
  obtain ⟨k, _, rfl⟩ := List.mem_map.mp this
  rfl

theorem build_inI32 {e : Nat} {ops : List KeyOp} : ∀ {t : Table}, build e ops = .ok t →
    ∀ c ∈ t, inI32 c.count = true := by
  have step : ∀ (t t' : Table) (pm : Int) (k : U32), (∀ c ∈ t, inI32 c.count = true) →
      ibltUpdate t pm k = .ok t' → ∀ c ∈ t', inI32 c.count = true := by
    intro t t' pm k ht h
    unfold ibltUpdate at h
    simp only at h
    split at h
    · simp at h
    · rename_i hb0
      generalize List.range N_HASH = js at h
      generalize t.length / N_HASH = b at h hb0
      induction js generalizing t with
      | nil => simp only [foldRes, Res.ok.injEq] at h; subst h; exact ht
      | cons j js ih =>
        simp only [foldRes, Res.bind_eq_ok] at h
        obtain ⟨t1, h1, h2⟩ := h
        refine ih t1 ?_ h2
        intro c hc
        unfold Table.updateAt at h1
        cases hx : t[cellIdx b j k]? with
        | none => rw [hx] at h1; simp at h1
        | some x =>
          rw [hx] at h1
          simp only [Res.bind_eq_ok, Res.ok.injEq] at h1
          obtain ⟨x', hx', rfl⟩ := h1
          rcases List.mem_or_eq_of_mem_set hc with h3 | h3
          · exact ht c h3
          · subst h3
            unfold Cell.update at hx'
            split at hx'
            · rename_i hin
              simp only [Res.ok.injEq] at hx'
              rw [← hx']
              exact hin
            · simp at hx'
  unfold build
  have h0 : ∀ c ∈ Table.new e, inI32 c.count = true := by
    intro c hc
    have := (List.mem_replicate.mp hc).2
    subst this
    decide
  generalize Table.new e = t0 at h0 ⊢
  induction ops generalizing t0 with
  | nil => intro t h; simp only [foldRes, Res.ok.injEq] at h; subst h; exact h0
  | cons o ops ih =>
    intro t h
    simp only [foldRes, Res.bind_eq_ok] at h
    obtain ⟨t1, h1, h2⟩ := h
    refine ih t1 ?_ h2
    cases o with
    | ins k => exact step _ _ _ _ h0 h1
    | del k => exact step _ _ _ _ h0 h1

/-- The full claim C07, for one compression scheme: with a large enough budget every received IBF is
processed. -/
def Spec.AlwaysTerminates (cdc : Codec) (expected : Nat) (l : Table) : Prop :=
  ∀ (comp : Component) (r : Table), Table.initialize cdc expected comp = .ok r →
    ∃ fuel, Table.diff fuel l r ≠ .hang

/-- A component on which the peeling loop runs forever: it alternately adds and removes one key. -/
theorem endless_witness (cdc : Codec) (hc : cdc.Lossless) (expected : Nat) (he : 3 ≤ expected) (A : List U32)
    (l : Table) (hl : HoldsSet expected l A) :
    ∃ comp r, Table.initialize cdc expected comp = .ok r ∧ ∀ fuel, Table.diff fuel l r = .hang := by
  have he0 : 0 < expected := by omega
  have hb2 : 2 ≤ buckets expected := by unfold buckets; omega
  obtain ⟨hlen, hpos⟩ := holdsSet_counts he0 hl
  obtain ⟨_, ops, hops, _⟩ := hl
  have hin := build_inI32 hops
  obtain ⟨j, i, hji, hi, hnj, hni, hgap⟩ := trap_exists hb2 0#32
  let trap := trapTable (3 * buckets expected) j 0#32
  let r : Table := List.zipWith Cell.sub' l trap
  have hrlen : r.length = nCells expected := by
    rw [nCells_eq]; simp only [r, trap, List.length_zipWith, hlen, trap_length]; omega
  have hget : ∀ (m : Nat) (x : Cell), r[m]? = some x → ∃ y, l[m]? = some y ∧
      (x.count = y.count ∨ x.count = y.count - 1) := by
    intro m x hx
    have hx' : (List.zipWith Cell.sub' l trap)[m]? = some x := hx
    rw [List.getElem?_zipWith] at hx'
    cases hy : l[m]? with
    | none => simp [hy] at hx'
    | some y =>
      refine ⟨y, rfl, ?_⟩
      have ht : trap[m]? = _ := trap_get m
      by_cases hm : m < 3 * buckets expected
      · rw [if_pos hm] at ht
        rw [hy, ht] at hx'
        simp only [Option.some.injEq] at hx'
        rw [← hx']
        by_cases hmj : m = j
        · simp [hmj, Cell.sub']
        · simp only [hmj, if_false, Cell.sub', Cell.zero]; omega
      · exfalso
        have : l.length ≤ m := by omega
        rw [List.getElem?_eq_none this] at hy
        simp at hy
  have hrin : ∀ c ∈ r, inI32 c.count = true := by
    intro c hcm
    obtain ⟨m, hm⟩ := List.mem_iff_getElem?.mp hcm
    obtain ⟨y, hy, hcy⟩ := hget m c hm
    have h1 := hpos y (List.mem_of_getElem? hy)
    have h2 := hin y (List.mem_of_getElem? hy)
    rw [inI32_iff] at h2 ⊢
    omega
  obtain ⟨comp, _, hinit⟩ := c02_round_trip cdc hc expected r hrlen hrin
  refine ⟨comp, r, hinit, fun fuel => ?_⟩
  unfold Table.diff
  have hsub : Table.sub l r = .ok trap := by
    rw [sub_of (by rw [hrlen, nCells_eq, hlen]), show List.zipWith Cell.sub' l r = trap from trap_rhs hlen]
    intro m x y hx hy
    obtain ⟨z, hz, hyz⟩ := hget m y hy
    rw [hx] at hz
    cases hz
    rw [inI32_iff]
    omega
  rw [hsub, Res.ok_bind, trap_loop (by omega) hji hi hnj hni hgap fuel rfl, Res.hang_bind]

/-- C07 is false, for every capacity of at least 3, every own IBF holding a set, and every lossless
compression: there is a component on which the peeling loop runs forever. -/
theorem c07_false (cdc : Codec) (hc : cdc.Lossless) (expected : Nat) (he : 3 ≤ expected) (A : List U32)
    (l : Table) (hl : HoldsSet expected l A) : ¬ Spec.AlwaysTerminates cdc expected l := by
  intro hall
  obtain ⟨comp, r, hinit, h⟩ := endless_witness cdc hc expected he A l hl
  obtain ⟨fuel, hf⟩ := hall comp r hinit
  exact hf (h fuel)

/-- C07, partial: honest IBFs without checksum collision are processed within one pass per differing key
(missing: arbitrary received tables, refuted by `c07_false`). -/
theorem c07_terminates_partial (expected : Nat) (he : 0 < expected) (A B : List U32) (l r : Table)
    (fuel : Nat) (hl : HoldsSet expected l A) (hr : HoldsSet expected r B)
    (hlen : diffCount A B < 2147483647) (hcs : NoChecksumCollision expected A B)
    (hf : diffCount A B < fuel) : Table.diff fuel l r ≠ .hang := by
  obtain ⟨d, hd⟩ := c05_total expected he A B l r fuel hl hr hlen hcs hf
  rw [hd]; simp

/-- Non-vacuity for C07: the default capacity 80 and a non-empty own IBF. -/
example : ¬ Spec.AlwaysTerminates Codec.none 80 (tableOf (buckets 80) (opKeys ([5#32, 6#32].map KeyOp.ins))) :=
  c07_false Codec.none (fun x => ⟨x, rfl, rfl⟩) 80 (by omega) [5#32, 6#32] _
    (holds_of_build (by decide) (build_of (by omega) (by simp)))

/-! ### C08 -/

/-- The full claim C08: no received component makes the difference overflow an `int32_t`. -/
def Spec.NeverOverflows (cdc : Codec) (expected : Nat) (l : Table) : Prop :=
  ∀ (comp : Component) (r : Table) (fuel : Nat), Table.initialize cdc expected comp = .ok r →
    Table.diff fuel l r ≠ .ub .signedOverflow

theorem sub_overflow : ∀ {l r : Table} {j : Nat} {x y : Cell}, l.length = r.length → l[j]? = some x →
    r[j]? = some y → inI32 (x.count - y.count) = false → Table.sub l r = .ub .signedOverflow := by
  intro l r j x y hlr hx hy hno
  rcases sub_cases hlr with h | h
  · exfalso
    clear hlr
    induction l generalizing r j with
    | nil => simp at hx
    | cons a l ih =>
      cases r with
      | nil => simp at hy
      | cons b r =>
        simp only [Table.sub, Res.bind_eq_ok, Res.ok.injEq] at h
        obtain ⟨c, hc, cs, hcs, _⟩ := h
        cases j with
        | zero =>
          simp only [List.getElem?_cons_zero, Option.some.injEq] at hx hy
          subst hx; subst hy
          simp [Cell.sub, hno] at hc
        | succ j =>
          simp only [List.getElem?_cons_succ] at hx hy
          exact ih hx hy (by rw [hcs, (sub_ok hcs).2])
  · exact h

/-- A component that makes the subtraction overflow at once: counts of -2^31. -/
theorem overflow_witness (cdc : Codec) (hc : cdc.Lossless) (expected : Nat) (he : 0 < expected) (A : List U32)
    (l : Table) (hl : HoldsSet expected l A) :
    ∃ comp r, Table.initialize cdc expected comp = .ok r ∧ ∀ fuel, Table.diff fuel l r = .ub .signedOverflow := by
  obtain ⟨hlen, hpos⟩ := holdsSet_counts he hl
  have hb := buckets_pos he
  let r : Table := List.replicate (nCells expected) ⟨-2147483648, 0#32, 0#32⟩
  obtain ⟨comp, _, hinit⟩ := c02_round_trip cdc hc expected r (by simp [r]) (by
    intro c hcm
    have := (List.mem_replicate.mp hcm).2
    subst this; decide)
  refine ⟨comp, r, hinit, fun fuel => ?_⟩
  unfold Table.diff
  have hl0 : 0 < l.length := by omega
  have hx : l[0]? = some l[0] := List.getElem?_eq_getElem hl0
  have hy : r[0]? = some ⟨-2147483648, 0#32, 0#32⟩ := by
    simp only [r, List.getElem?_replicate]
    rw [if_pos (by rw [nCells_eq]; omega)]
  have h0 := hpos l[0] (List.getElem_mem hl0)
  rw [sub_overflow (by simp [r, hlen, nCells_eq]) hx hy, Res.ub_bind]
  cases hi : inI32 (l[0].count - -2147483648) with
  | false => rfl
  | true => rw [inI32_iff] at hi; omega

/-- C08 is false, for every capacity, every own IBF holding a set and every lossless compression: a
received count of -2^31 overflows the subtraction, which is undefined behaviour. -/
theorem c08_false (cdc : Codec) (hc : cdc.Lossless) (expected : Nat) (he : 0 < expected) (A : List U32)
    (l : Table) (hl : HoldsSet expected l A) : ¬ Spec.NeverOverflows cdc expected l := by
  intro hall
  obtain ⟨comp, r, hinit, h⟩ := overflow_witness cdc hc expected he A l hl
  exact hall comp r 1 hinit (h 1)

/-- C08, partial: honest IBFs (up to 2^31-2 differing keys, no checksum collision) never overflow
(missing: arbitrary received tables, refuted by `c08_false`). -/
theorem c08_no_overflow_partial (expected : Nat) (he : 0 < expected) (A B : List U32) (l r : Table)
    (fuel : Nat) (hl : HoldsSet expected l A) (hr : HoldsSet expected r B)
    (hlen : diffCount A B < 2147483647) (hcs : NoChecksumCollision expected A B) (u : UB) :
    Table.diff fuel l r ≠ .ub u := by
  unfold Table.diff
  rw [sub_sets he hl hr (by omega), Res.ok_bind]
  rcases (peelLoop_inv (buckets_pos he) (diffKeys_units A B) (diffKeys_nodup hl.1 hr.1)
    (by rw [diffKeys_length]; omega) (noFalsePure_of_spec hl.1 hr.1 hcs) fuel
    (PInv.init (buckets expected) (diffKeys A B))).2 with h | ⟨p, R, h, _, _⟩
  · rw [h]; simp
  · rw [h]; simp

/-- C08, for tables of any content: if the counts of some cell differ by a number outside of int32, the subtraction overflows. -/
theorem c08_overflow (fuel : Nat) (l r : Table) (hlr : l.length = r.length) (j : Nat) (x y : Cell) (hx : l[j]? = some x)
    (hy : r[j]? = some y) (h : x.count - y.count < -2147483648 ∨ 2147483648 ≤ x.count - y.count) :
    Table.diff fuel l r = .ub .signedOverflow := by
  unfold Table.diff
  rw [sub_overflow hlr hx hy, Res.ub_bind]
  cases hi : inI32 (x.count - y.count) with
  | false => rfl
  | true => rw [inI32_iff] at hi; omega

/-- C08, partial, for tables of any content: nothing overflows in the first n passes if the counts of the two tables differ by
less than 2^31 - n * (number of cells) everywhere.  Missing: counts that differ by more; by 2^31 or more refuted by `c08_overflow`. -/
theorem c08_any_partial (expected : Nat) (he : 0 < expected) (n : Nat) (l r : Table) (hl : l.length = 3 * buckets expected)
    (hr : r.length = 3 * buckets expected)
    (h : ∀ (j : Nat) (x y : Cell), l[j]? = some x → r[j]? = some y → (x.count - y.count).natAbs + n * (3 * buckets expected) < 2147483648)
    (u : UB) : Table.diff n l r ≠ .ub u := by
  have hw : Within (2147483647 - (n * (3 * buckets expected) : Nat)) (List.zipWith Cell.sub' l r) := by
    intro c hc
    obtain ⟨j, hj⟩ := List.mem_iff_getElem?.mp hc
    rw [List.getElem?_zipWith] at hj
    cases hx : l[j]? with
    | none => simp [hx] at hj
    | some x =>
      cases hy : r[j]? with
      | none => simp [hx, hy] at hj
      | some y =>
        rw [hx, hy] at hj
        simp only [Option.some.injEq] at hj
        have := h j x y hx hy
        rw [← hj]
        simp only [Cell.sub']
        omega
  unfold Table.diff
  rw [sub_of (by rw [hl, hr]), Res.ok_bind]
  · rcases peelLoop_within (buckets_pos he) n
      (p := { table := List.zipWith Cell.sub' l r, positive := [], negative := [], nErased := 0 })
      (by simp only [List.length_zipWith, hl, hr]; omega) (by omega) hw with e | ⟨p', e⟩
    · rw [e]; simp
    · rw [e]; simp
  · intro j x y hx hy
    have := h j x y hx hy
    rw [inI32_iff]
    omega

/-- Non-vacuity for `c08_any_partial`: a table no node builds, and a million passes. -/
example (u : UB) : Table.diff 1000000 [⟨1, 7#32, murmur32 11#32 7#32⟩, ⟨2000000000, 7#32, 3#32⟩, ⟨1, 7#32, 0#32⟩] (Table.new 1) ≠ .ub u :=
  c08_any_partial 1 (by omega) _ _ _ rfl rfl (by
    intro j x y hx hy
    match j with
    | 0 => cases hx; cases hy; decide
    | 1 => cases hx; cases hy; decide
    | 2 => cases hx; cases hy; decide
    | j + 3 => simp at hx) u

/-- Non-vacuity for C08. -/
example : ¬ Spec.NeverOverflows Codec.none 80 (Table.new 80) :=
  c08_false Codec.none (fun x => ⟨x, rfl, rfl⟩) 80 (by omega) [] _ (holds_of_build (A := []) (by simp) rfl)

/-! ### C09 -/

/-- C09: an empty decoded difference means equal IBFs, for arbitrary cell contents. -/
theorem c09_empty_iff_equal (fuel : Nat) (l r : Table) (d : IBLTDiff) (h : Table.diff fuel l r = .ok d) :
    (d.canDecode = true ∧ d.positive = [] ∧ d.negative = []) ↔ l = r :=
  diff_nothing h

/-- C09: equal IBFs are always processed in one pass. -/
theorem c09_equal_decodes (fuel : Nat) (t : Table) :
    Table.diff (fuel + 1) t t = .ok ⟨true, [], []⟩ := diff_self fuel t

/-- Non-vacuity for C09: unequal tables give a non-empty or undecodable difference. -/
example : Table.diff 5 [⟨5, 1#32, 2#32⟩, ⟨0, 0#32, 0#32⟩, ⟨0, 0#32, 0#32⟩] (Table.new 1)
    = .ok ⟨false, [], []⟩ := by decide +kernel

/-! ### C10 -/

/-- C10: for each seed the hash of 32-bit keys is injective (hence a bijection). -/
theorem c10_murmur_injective (seed x y : U32) (h : murmur32 seed x = murmur32 seed y) : x = y :=
  murmur32_inj seed h

/-- C10: the check field of a cell with one key determines the key. -/
theorem c10_check_identifies (k k' : U32) (h : check k = check k') : k = k' := murmur32_inj _ h

/-- C10: the hash of a Name is the hash of its wire bytes: equal bytes, equal hash, and equal bytes mean
equal names. -/
theorem c10_name_hash (n m : Name) (hn : n.Valid) (hm : m.Valid) :
    (n.wireValue = m.wireValue ↔ n = m) ∧ ∀ seed, murmurName seed n = murmurBytes n.wireValue seed := by
  refine ⟨⟨fun h => ?_, fun h => by rw [h]⟩, fun _ => rfl⟩
  have h1 := ofValue_wireValue n hn
  rw [h, ofValue_wireValue m hm] at h1
  exact (Option.some.inj h1).symm

/-- Non-vacuity for C10. -/
example : murmur32 11#32 1#32 ≠ murmur32 11#32 2#32 := by decide +kernel

end PSync
