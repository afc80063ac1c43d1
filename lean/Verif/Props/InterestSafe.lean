import Verif.Proofs.InterestSafe
import Verif.Props.PartialSync
import Verif.Props.FullAnswer
import Verif.Props.Ieee
/-!
Property C88: no Interest makes the behaviour of a producer undefined.
-/
namespace PSync
open Spec

/-- The full claim C88. -/
def Spec.InterestsNeverFail : Prop :=
  ∀ cfg : Cfg, cfg.WF → ∀ i : Interest,
    (∀ s, Full.Reach cfg s → ¬ Fails (Full.step cfg s (.recvInterest i))) ∧
    (∀ s, Part.Reach cfg s → ¬ Fails (Part.step cfg s (.recvInterest i)))

/-- C88, exactly when a partial-sync producer fails on an Interest: it is not answered from the segment store, is a sync Interest of
the expected form, and either the filter cannot be built, or the filter and the IBF are accepted and comparing the IBFs fails,
or it succeeds and asking the filter for one of the names to be sent fails. -/
theorem c88_producer_exact (cfg : Cfg) (hwf : cfg.WF) (s : Part) (i : Interest) :
    Fails (Part.step cfg s (.recvInterest i)) ↔
      s.pub.replyFromStore i.name = none ∧ ∃ count th c3 c4, SyncAsk cfg i.name count th c3 c4 ∧
        (Fails (Bloom.ofComponent cfg.libm cfg.extraSalt (count % 2 ^ 32) (cfg.libm.ofThousandths th) c3) ∨
         ∃ bf t, Bloom.ofComponent cfg.libm cfg.extraSalt (count % 2 ^ 32) (cfg.libm.ofThousandths th) c3 = .ok bf ∧
           Table.initialize cfg.ibltCodec cfg.expected c4 = .ok t ∧ AnswerFails cfg s bf t) := by
  have key : ∀ count th c3 c4, s.pub.replyFromStore i.name = none → SyncAsk cfg i.name count th c3 c4 → i.name ≠ [] →
      (Fails (Part.onSyncInterest cfg s i) ↔
        (Fails (Bloom.ofComponent cfg.libm cfg.extraSalt (count % 2 ^ 32) (cfg.libm.ofThousandths th) c3) ∨
         ∃ bf t, Bloom.ofComponent cfg.libm cfg.extraSalt (count % 2 ^ 32) (cfg.libm.ofThousandths th) c3 = .ok bf ∧
           Table.initialize cfg.ibltCodec cfg.expected c4 = .ok t ∧ AnswerFails cfg s bf t)) := by
    intro count th c3 c4 hst ha hne
    obtain ⟨k, e⟩ := Part.onSyncInterest_ask hst ha
    rw [e, show (2 : Nat) ^ 32 = 4294967296 from rfl]
    cases hb : Bloom.ofComponent cfg.libm cfg.extraSalt (count % 4294967296) (cfg.libm.ofThousandths th) c3 with
    | throw e =>
      refine ⟨fun h => absurd h (fails_ok _), ?_⟩
      rintro (h | ⟨_, _, h, _⟩)
      · exact absurd h (fails_throw _)
      · cases h
    | ub u => exact ⟨fun _ => .inl (.inl ⟨u, rfl⟩), fun _ => .inl ⟨u, rfl⟩⟩
    | hang => exact ⟨fun _ => .inl (.inr rfl), fun _ => .inr rfl⟩
    | ok bf =>
      cases ht : Table.initialize cfg.ibltCodec cfg.expected c4 with
      | throw e =>
        refine ⟨fun h => absurd h (fails_ok _), ?_⟩
        rintro (h | ⟨_, _, _, h, _⟩)
        · exact absurd h (fails_ok _)
        · cases h
      | ub u => exact absurd (.inl ⟨u, ht⟩) (fails_initialize _ _ _)
      | hang => exact absurd (.inr ht) (fails_initialize _ _ _)
      | ok t =>
        have hp := Part.fails_parsed hwf s i hne k bf t
        constructor
        · intro h
          exact .inr ⟨bf, t, rfl, rfl, hp.mp h⟩
        · rintro (h | ⟨_, _, h1, h2, h⟩)
          · exact absurd h (fails_ok _)
          · cases h1; cases h2
            exact hp.mpr h
  constructor
  · intro h
    by_cases hh : (cfg.syncPrefix ++ [HELLO]) <+: i.name
    · simp only [Part.step, List.isPrefixOf_iff_prefix.mpr hh, if_true] at h
      exact absurd h (Part.fails_hello hwf s i hh)
    · by_cases hp : (cfg.syncPrefix ++ [SYNC]) <+: i.name
      · rw [step_sync hp] at h
        obtain ⟨hst, count, th, c3, c4, ha⟩ := Part.ask_of_fails hp h
        have hne : i.name ≠ [] := by
          intro hnil
          rw [hnil, List.prefix_nil] at hp
          simp at hp
        exact ⟨hst, count, th, c3, c4, ha, (key count th c3 c4 hst ha hne).mp h⟩
      · simp only [Part.step, List.isPrefixOf_iff_prefix, hh, hp, if_false] at h
        exact absurd h (fails_ok _)
  · rintro ⟨hst, count, th, c3, c4, ha, h⟩
    have hp : (cfg.syncPrefix ++ [SYNC]) <+: i.name := by
      obtain ⟨c1, c2, hk | ⟨v, g, hk⟩, _⟩ := ha
      · exact ⟨[c1, c2, c3, c4], by rw [hk]; simp⟩
      · exact ⟨[c1, c2, c3, c4, v, g], by rw [hk]; simp⟩
    have hne : i.name ≠ [] := by
      intro hnil
      rw [hnil, List.prefix_nil] at hp
      simp at hp
    rw [step_sync hp]
    exact (key count th c3 c4 hst ha hne).mpr h

/-- C88, exactly when a full-sync node fails on an Interest: it is not answered from the segment store, ends in an IBF that is
accepted and a number, and comparing the IBFs fails. -/
theorem c88_full_exact (cfg : Cfg) (hwf : cfg.WF) (s : Full) (i : Interest) :
    Fails (Full.step cfg s (.recvInterest i)) ↔
      s.pub.replyFromStore i.name = none ∧ ∃ c b q t, i.name = cfg.syncPrefix ++ [c, b] ∧ readNni b.value = some q ∧
        Table.initialize cfg.ibltCodec cfg.expected c = .ok t ∧ Fails (Table.diff cfg.fuel s.base.iblt t) := by
  have key : ∀ c b, i.name = cfg.syncPrefix ++ [c, b] → s.pub.replyFromStore i.name = none →
      (Fails (Full.onSyncInterest cfg s i false) ↔ ∃ q t, readNni b.value = some q ∧
        Table.initialize cfg.ibltCodec cfg.expected c = .ok t ∧ Fails (Table.diff cfg.fuel s.base.iblt t)) := by
    intro c b hi hst
    have hne : i.name ≠ [] := by rw [hi]; simp
    unfold Full.onSyncInterest
    rw [hst]
    simp only
    have hd : (i.name.drop cfg.syncPrefix.length).length = 2 := by rw [hi]; simp
    rw [hd, if_neg (by decide), if_neg (by decide)]
    rw [show i.name.getFromEnd 2 = .ok c by rw [hi]; exact getFromEnd_two _ _ _,
      show i.name.getFromEnd 1 = .ok b by rw [hi]; exact getFromEnd_last _ _ _, Res.ok_bind, Res.ok_bind]
    cases hq : readNni b.value with
    | none =>
      have : b.toNumber = .throw .tlv := by unfold Component.toNumber; rw [hq]; rfl
      rw [this]
      refine ⟨fun h => absurd h (fails_throw _), ?_⟩
      rintro ⟨_, _, h, _⟩
      cases h
    | some q =>
      have : b.toNumber = .ok q := by unfold Component.toNumber; rw [hq]; rfl
      rw [this, Res.ok_bind]
      cases ht : Table.initialize cfg.ibltCodec cfg.expected c with
      | throw e =>
        refine ⟨fun h => absurd h (fails_ok _), ?_⟩
        rintro ⟨_, _, _, h, _⟩
        cases h
      | ub u => exact absurd (.inl ⟨u, ht⟩) (fails_initialize _ _ _)
      | hang => exact absurd (.inr ht) (fails_initialize _ _ _)
      | ok t =>
        simp only
        rw [fails_bind]
        constructor
        · rintro (h | ⟨d, _, h⟩)
          · exact ⟨q, t, rfl, rfl, h⟩
          · exfalso
            split at h
            · exact fails_of_ok (Full.onUndecodable_total hwf hne) h
            · exact fails_of_ok (Full.onDecoded_total hwf hne) h
        · rintro ⟨_, _, h1, h2, h⟩
          cases h2
          exact .inl h
  constructor
  · intro h
    by_cases hp : cfg.syncPrefix <+: i.name
    · simp only [Full.step, List.isPrefixOf_iff_prefix.mpr hp, if_true] at h
      cases hst : s.pub.replyFromStore i.name with
      | some d =>
        simp only [Full.onSyncInterest, hst] at h
        exact absurd h (fails_ok _)
      | none =>
        refine ⟨rfl, ?_⟩
        obtain ⟨r, hr⟩ := hp
        by_cases h2 : r.length = 2
        · match r, h2 with
          | [c, b], _ =>
            obtain ⟨q, t, a1, a2, a3⟩ := (key c b hr.symm hst).mp h
            exact ⟨c, b, q, t, hr.symm, a1, a2, a3⟩
        · exfalso
          simp only [Full.onSyncInterest, hst] at h
          rw [← hr, List.drop_left] at h
          split at h
          · rw [fails_bind] at h
            rcases h with h | ⟨_, _, h⟩
            · exact fails_of_ok (nackData_total hwf.iblt_lossless _ _) h
            · exact fails_ok _ h
          · exact fails_ok _ h
    · simp only [Full.step, List.isPrefixOf_iff_prefix, hp, if_false] at h
      exact absurd h (fails_ok _)
  · rintro ⟨hst, c, b, q, t, hi, h1, h2, h3⟩
    have hp : cfg.syncPrefix <+: i.name := ⟨[c, b], hi.symm⟩
    simp only [Full.step, List.isPrefixOf_iff_prefix.mpr hp, if_true]
    exact (key c b hi hst).mpr ⟨q, t, h1, h2, h3⟩

/-- C88 is false for partial sync in IEEE arithmetic, in every state: a sync Interest with a probability of 0 (as every consumer
sends whose probability is below 0.001) and a count that is not a multiple of 2^32 converts minus infinity to an integer. -/
theorem c88_false_probability {log : Double → Double} {pow : Double → Double → Double} (hf : AnnexF log pow) (cfg : Cfg)
    (hl : cfg.libm = Libm.ieee log pow) (s : Part) (i : Interest) (count : Nat) (c3 c4 : Component)
    (hst : s.pub.replyFromStore i.name = none) (ha : SyncAsk cfg i.name count 0 c3 c4) (hc : count % 2 ^ 32 ≠ 0) :
    Part.step cfg s (.recvInterest i) = .ub .floatCast := by
  have hp : (cfg.syncPrefix ++ [SYNC]) <+: i.name := by
    obtain ⟨c1, c2, hk | ⟨v, g, hk⟩, _⟩ := ha
    · exact ⟨[c1, c2, c3, c4], by rw [hk]; simp⟩
    · exact ⟨[c1, c2, c3, c4, v, g], by rw [hk]; simp⟩
  obtain ⟨k, e⟩ := Part.onSyncInterest_ask hst ha
  rw [step_sync hp, e, hl, c17_false_zero hf cfg.extraSalt _ (by omega) (by omega)]
  rfl

/-- C88 is false for full sync, for every node whose IBF holds a set: there is an IBF that makes the subtraction overflow, whatever
number follows it, unless the Interest is answered from the segment store. -/
theorem c88_false_overflow (cfg : Cfg) (hwf : cfg.WF) (he : 0 < cfg.expected) (s : Full) (A : List U32) (hs : HoldsSet cfg.expected s.base.iblt A) :
    ∃ c, ∀ (i : Interest) (b : Component) (q : Nat), i.name = cfg.syncPrefix ++ [c, b] → readNni b.value = some q →
      s.pub.replyFromStore i.name = none → Fails (Full.step cfg s (.recvInterest i)) := by
  obtain ⟨c, t, h1, h2⟩ := overflow_witness cfg.ibltCodec hwf.iblt_lossless cfg.expected he A s.base.iblt hs
  exact ⟨c, fun i b q hi hb hst => (c88_full_exact cfg hwf s i).mpr ⟨hst, c, b, q, t, hi, hb, h1, .inl ⟨_, h2 _⟩⟩⟩

/-- C88 is false for full sync, for every node with a capacity of at least 3 whose IBF holds a set: there is an IBF that keeps the
handler busy for ever. -/
theorem c88_false_endless (cfg : Cfg) (hwf : cfg.WF) (he : 3 ≤ cfg.expected) (s : Full) (A : List U32) (hs : HoldsSet cfg.expected s.base.iblt A) :
    ∃ c t, Table.initialize cfg.ibltCodec cfg.expected c = .ok t ∧ (∀ fuel, Table.diff fuel s.base.iblt t = .hang) ∧
      ∀ (i : Interest) (b : Component) (q : Nat), i.name = cfg.syncPrefix ++ [c, b] → readNni b.value = some q →
        s.pub.replyFromStore i.name = none → Fails (Full.step cfg s (.recvInterest i)) := by
  obtain ⟨c, t, h1, h2⟩ := endless_witness cfg.ibltCodec hwf.iblt_lossless cfg.expected he A s.base.iblt hs
  exact ⟨c, t, h1, h2, fun i b q hi hb hst => (c88_full_exact cfg hwf s i).mpr ⟨hst, c, b, q, t, hi, hb, h1, .inr (h2 _)⟩⟩

/-- The filter of an Interest for which the computed size is between 1 and 2^32-8 bits is rejected or usable. -/
theorem ofComponent_sized {fl : Libm} {extra : Nat → U32} {count : Nat} {fpp : Double} {c : Component} {m : Nat}
    (hm : fl.toU32 (fl.search count fpp).1 = some m) (h1 : 1 ≤ m) (h2 : m ≤ 4294967288) :
    ¬ Fails (Bloom.ofComponent fl extra count fpp c) ∧ ∀ bf, Bloom.ofComponent fl extra count fpp c = .ok bf → SizedBf bf := by
  unfold Bloom.ofComponent Bloom.new optimalParams
  split
  · exact ⟨fails_throw _, fun bf h => by cases h⟩
  · rw [hm]
    simp only [Res.ok_bind]
    split
    · exact ⟨fails_throw _, fun bf h => by cases h⟩
    · rename_i hl
      simp only [ne_eq, not_not] at hl
      refine ⟨fails_ok _, fun bf h => ?_⟩
      rw [Res.ok.injEq] at h
      subst h
      obtain ⟨a, b⟩ := bloomTableSize_of h1 h2
      exact ⟨a, by simp only; rw [hl]; exact b⟩

/-- C88, partial, for partial sync: a producer whose IBF holds a set does not fail on an Interest whose filter has a computed size of
1 to 2^32-8 bits and whose IBF holds a set (fewer than 2^31-1 differing keys, no checksum collision).  Missing: other
parameters and arbitrary IBFs, for which the claim is false. -/
theorem c88_producer_partial (cfg : Cfg) (hwf : cfg.WF) (he : 0 < cfg.expected) (s : Part) (A : List U32)
    (hs : HoldsSet cfg.expected s.base.iblt A) (i : Interest)
    (h : ∀ count th c3 c4, SyncAsk cfg i.name count th c3 c4 →
      (∃ m, cfg.libm.toU32 (cfg.libm.search (count % 2 ^ 32) (cfg.libm.ofThousandths th)).1 = some m ∧ 1 ≤ m ∧ m ≤ 2 ^ 32 - 8) ∧
      ∀ t, Table.initialize cfg.ibltCodec cfg.expected c4 = .ok t → ∃ B, HoldsSet cfg.expected t B ∧
        diffCount A B < 2147483647 ∧ diffCount A B < cfg.fuel ∧ NoChecksumCollision cfg.expected A B) :
    ¬ Fails (Part.step cfg s (.recvInterest i)) := by
  rw [c88_producer_exact cfg hwf]
  rintro ⟨_, count, th, c3, c4, ha, hf⟩
  obtain ⟨⟨m, hm, h1, h2⟩, ht⟩ := h count th c3 c4 ha
  obtain ⟨k1, k2⟩ := ofComponent_sized (extra := cfg.extraSalt) (c := c3) hm h1 (by omega)
  rcases hf with hf | ⟨bf, t, hb, hi, hf⟩
  · exact k1 hf
  · obtain ⟨B, hB, d1, d2, d3⟩ := ht t hi
    obtain ⟨d, hd⟩ := diff_sets_total he hs hB d1 (noFalsePure_of_spec hs.1 hB.1 d3) d2
    rcases hf with hf | ⟨_, _, _, _, _, n, _, hf⟩
    · exact fails_of_ok ⟨d, hd⟩ hf
    · rw [contains_of (k2 bf hb)] at hf
      exact fails_ok _ hf

/-- C88, partial, for full sync: likewise. -/
theorem c88_full_partial (cfg : Cfg) (hwf : cfg.WF) (he : 0 < cfg.expected) (s : Full) (A : List U32)
    (hs : HoldsSet cfg.expected s.base.iblt A) (i : Interest)
    (h : ∀ c b t, i.name = cfg.syncPrefix ++ [c, b] → Table.initialize cfg.ibltCodec cfg.expected c = .ok t →
      ∃ B, HoldsSet cfg.expected t B ∧ diffCount A B < 2147483647 ∧ diffCount A B < cfg.fuel ∧ NoChecksumCollision cfg.expected A B) :
    ¬ Fails (Full.step cfg s (.recvInterest i)) := by
  rw [c88_full_exact cfg hwf]
  rintro ⟨_, c, b, q, t, hi, _, ht, hf⟩
  obtain ⟨B, hB, d1, d2, d3⟩ := h c b t hi ht
  obtain ⟨d, hd⟩ := diff_sets_total he hs hB d1 (noFalsePure_of_spec hs.1 hB.1 d3) d2
  exact fails_of_ok ⟨d, hd⟩ hf

/-- The sample settings with IEEE arithmetic. -/
def ieeeCfg : Cfg := { sampleCfg with libm := Libm.ieee sampleLog samplePow }

theorem ieeeCfg_wf : ieeeCfg.WF := ⟨sampleCfg_wf.1, sampleCfg_wf.2, sampleCfg_wf.3, sampleCfg_wf.4⟩

/-- C88 is false as stated. -/
theorem c88_false : ¬ Spec.InterestsNeverFail := by
  intro h
  refine (h ieeeCfg ieeeCfg_wf ⟨nameOf [115] ++ [SYNC, ⟨8, [6]⟩, ⟨8, [0]⟩, ⟨8, []⟩, ⟨8, []⟩], 1000, 0⟩).2 (Part.init ieeeCfg) ⟨[], rfl⟩ (.inl ⟨.floatCast, ?_⟩)
  exact c88_false_probability sample_annexF ieeeCfg rfl _ _ 6 ⟨8, []⟩ ⟨8, []⟩ rfl
    ⟨⟨8, [6]⟩, ⟨8, [0]⟩, .inl rfl, by decide, by decide⟩ (by decide)

/-- Non-vacuity for `c88_false_overflow`: a new node holds the empty set and its store is empty. -/
example : ∃ s, Full.init sampleCfg = .ok s ∧ HoldsSet sampleCfg.expected s.base.iblt [] ∧ ∀ n, s.pub.replyFromStore n = none := by
  obtain ⟨s, h, hp⟩ : ∃ s, Full.init sampleCfg = .ok s ∧ s.pub = SegPub.empty :=
    Res.of_get? (f := fun s : Full => s.pub) (by decide +kernel)
  refine ⟨s, h, ?_, fun n => by rw [hp]; rfl⟩
  rw [Full.init_base h]
  exact holds_of_build (A := []) (by simp) rfl

/-- Non-vacuity for the partial theorems: the sample parameters give a size of 86 bits, and the IBF of the other side may hold
one key more. -/
example : sampleCfg.libm.toU32 (sampleCfg.libm.search 6 (sampleCfg.libm.ofThousandths 1)).1 = some 86 := by
  have h : sampleCfg.libm.ofThousandths 1 = 0x3F50624DD2F1A9FC#64 := by decide
  rw [h, show sampleCfg.libm = sampleLibm from rfl, sample_search]
  decide
example : diffCount [] [5#32] < 2147483647 ∧ diffCount [] [5#32] < sampleCfg.fuel := by decide

end PSync
