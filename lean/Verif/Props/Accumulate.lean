import Verif.Props.PartialSync
import Verif.Proofs.Fetchable
import Verif.Proofs.InterestSafe
/-!
Property C112: parked Interests do not accumulate at a PartialProducer.
-/
namespace PSync
open Spec

/-- The names of the Interests received during `ops`. -/
def Spec.receivedNames (ops : List Part.Op) : List Name :=
  ops.filterMap fun op => match op with
    | .recvInterest i => some i.name
    | _ => none

theorem mem_receivedNames {ops : List Part.Op} {n : Name} :
    n ∈ receivedNames ops ↔ ∃ i, Part.Op.recvInterest i ∈ ops ∧ i.name = n := by
  unfold receivedNames
  rw [List.mem_filterMap]
  constructor
  · rintro ⟨op, h1, h2⟩
    split at h2
    · rename_i i
      exact ⟨i, h1, by simpa using h2⟩
    · cases h2
  · rintro ⟨i, h1, rfl⟩
    exact ⟨_, h1, rfl⟩

/-- The full claim C112: what is parked was received recently, so there are not more parked Interests than were received since the
end of `old`, if since then more time has passed than any Interest received before may wait. -/
def Spec.NoAccumulation : Prop :=
  ∀ cfg : Cfg, cfg.WF → ∀ (old new : List Part.Op) (s0 s : Part) (L : Nat), Part.run cfg (Part.init cfg) old = .ok s0 →
    Part.run cfg s0 new = .ok s → (∀ i, Part.Op.recvInterest i ∈ old → i.lifetime ≤ L) → s0.now + L + cfg.lag < s.now →
      s.pending.length ≤ (receivedNames new).length

/-- C112 if no Interest is received whose name is longer than those a consumer sends.  (Missing: Interests with a version and a
segment number, `c112_false`.)  In particular nothing is parked when no Interest has come for long enough. -/
theorem c112_bounded_partial (cfg : Cfg) (old new : List Part.Op) (s0 s : Part) (L : Nat)
    (h0 : Part.run cfg (Part.init cfg) old = .ok s0) (h : Part.run cfg s0 new = .ok s)
    (hL : ∀ i, Part.Op.recvInterest i ∈ old → i.lifetime ≤ L) (ht : s0.now + L + cfg.lag < s.now)
    (hlen : ∀ i, Part.Op.recvInterest i ∈ old ++ new → i.name.length ≤ cfg.syncPrefix.length + 5) :
    s.pending.keys ⊆ receivedNames new ∧ s.pending.length ≤ (receivedNames new).length := by
  have hrun : Part.run cfg (Part.init cfg) (old ++ new) = .ok s := by
    unfold Part.run at *
    rw [foldRes_append, h0]
    exact h
  have hpk := Part.reach_parked ⟨_, hrun⟩
  have hsub : s.pending.keys ⊆ receivedNames new := by
    intro n hn
    have hshort : ∀ i, Part.Op.recvInterest i ∈ old ++ new → AsksFor i.name n → i.name = n := by
      intro i hi ha
      rw [NMap.mem_keys, Option.isSome_iff_exists] at hn
      obtain ⟨e, he⟩ := hn
      obtain ⟨c1, c2, c3, c4, _, _, hn, _⟩ := hpk.fields n e he
      rcases ha with ha | ⟨v, g, ha⟩
      · exact ha
      · have := hlen i hi
        rw [ha, hn] at this
        simp at this
    obtain ⟨pre, i, post, s1, h1, h2, h3, h4⟩ := c43_expires_partial cfg s _ hrun n hn hshort
    have hi : Part.Op.recvInterest i ∈ old ++ new := by rw [h1]; simp
    rw [mem_receivedNames]
    refine ⟨i, ?_, hshort i hi h3⟩
    by_contra hnew
    rcases List.append_eq_append_iff.mp h1 with ⟨l, e1, e2⟩ | ⟨l, e1, e2⟩
    · exact hnew (by rw [e2]; simp)
    · cases l with
      | nil =>
        simp only [List.nil_append] at e2
        exact hnew (by rw [← e2]; simp)
      | cons o l =>
        simp only [List.cons_append, List.cons.injEq] at e2
        obtain ⟨rfl, _⟩ := e2
        have hl := hL i (by rw [e1]; simp)
        have h5 : Part.run cfg s1 (.recvInterest i :: l) = .ok s0 := by
          rw [e1] at h0
          unfold Part.run at *
          rw [foldRes_append, h2] at h0
          exact h0
        have := (Part.run_micro (Part.reach_parked ⟨pre, h2⟩) h5).clock
        have h6 : s1.now ≤ s0.now := this
        omega
  refine ⟨hsub, ?_⟩
  have h1 := (NMap.keys_nodup hpk.sorted).subperm hsub
  have h2 := h1.length_le
  unfold NMap.keys at h2
  rwa [List.length_map] at h2

/-! ### Interests that are never forgotten -/

/-- The sync Interest with the table `b` in its filter and the IBF of a consumer that knows nothing. -/
def leakName (b : Bytes) : Name :=
  nameOf [115] ++ [SYNC, ⟨8, [6]⟩, ⟨8, [1]⟩, ⟨8, b⟩, ⟨8, List.replicate 72 0⟩]

/-- The Interest for the first segment of a reply to it, to be answered within 10 ms. -/
def leakInterest (b : Bytes) : Interest := ⟨leakName b ++ [⟨54, [1]⟩, ⟨50, [0]⟩], 10, 1⟩

theorem leakName_inj {b b' : Bytes} (h : leakName b = leakName b') : b = b' := by
  have := List.append_cancel_left (show nameOf [115] ++ _ = nameOf [115] ++ _ from h)
  simp only [List.cons.injEq, and_true, true_and] at this
  exact congrArg (fun c : Component => c.value) this

/-- A producer that has nothing published and for each table in `l` keeps an Interest without a timer. -/
structure Leaked (l : List Bytes) (s : Part) : Prop where
  base : s.base = Base.new sampleCfg
  pub : s.pub = SegPub.empty
  sorted : NMap.Sorted s.pending
  keys : ∀ k, (s.pending.find k).isSome = true ↔ ∃ b ∈ l, k = leakName b
  timers : ∀ k e, s.pending.find k = some e → e.timer = none

/-- What the producer does with such an Interest. -/
theorem leak_parks {l : List Bytes} {s : Part} (h : Leaked l s) {b : Bytes} (hb : b.length = 11) (hl : b ∉ l) :
    ∃ bf t, Part.step sampleCfg s (.recvInterest (leakInterest b)) =
      .ok { s with pending := s.pending.set (leakName b) ⟨bf, t, some (s.now + 10), (leakInterest b).name⟩ } := by
  obtain ⟨t, ht, hd⟩ : ∃ t, Table.initialize Codec.none 4 ⟨8, List.replicate 72 0⟩ = .ok t ∧
      (Table.diff 40 (Base.new sampleCfg).iblt t).get? = some ⟨true, [], []⟩ := Res.of_get? (by decide +kernel)
  obtain ⟨d, hd, hd'⟩ := Res.of_get? (f := fun x : IBLTDiff => x) (b := (⟨true, [], []⟩ : IBLTDiff)) (by rw [hd]; rfl)
  subst hd'
  obtain ⟨bf0, hb0, hb1⟩ : ∃ bf0, Bloom.new sampleLibm (fun _ => 0#32) 6 (sampleLibm.ofThousandths 1) = .ok bf0 ∧
      bf0.tableSize = 88 := Res.of_get? (by decide +kernel)
  have hbf : Bloom.ofComponent sampleLibm (fun _ => 0#32) (6 % 4294967296) (sampleLibm.ofThousandths 1) ⟨8, b⟩
      = .ok { bf0 with bits := b } := by
    unfold Bloom.ofComponent
    rw [show 6 % 4294967296 = 6 from rfl, hb0]
    simp only [Res.ok_bind]
    rw [if_neg (by rw [hb1, hb]; decide)]
  have hfind : s.pending.find (leakName b) = none := by
    cases hf : s.pending.find (leakName b) with
    | none => rfl
    | some e =>
      obtain ⟨b', h1, h2⟩ := (h.keys (leakName b)).mp (by rw [hf]; rfl)
      rw [leakName_inj h2] at hl
      exact absurd h1 hl
  refine ⟨{ bf0 with bits := b }, t, ?_⟩
  have hst : s.pub.replyFromStore (leakInterest b).name = none := by rw [h.pub]; rfl
  have hn : (leakInterest b).name = sampleCfg.syncPrefix ++ [SYNC, ⟨8, [6]⟩, ⟨8, [1]⟩, ⟨8, b⟩, ⟨8, List.replicate 72 0⟩] ++ [⟨54, [1]⟩, ⟨50, [0]⟩] := rfl
  have hex : Part.extract (leakName b) = .ok (6 % 4294967296, 1, ⟨8, b⟩, ⟨8, List.replicate 72 0⟩) := by
    have := (Part.extract_four (nameOf [115] ++ [SYNC]) ⟨8, [6]⟩ ⟨8, [1]⟩ ⟨8, b⟩ ⟨8, List.replicate 72 0⟩
      (6 % 4294967296, 1, ⟨8, b⟩, ⟨8, List.replicate 72 0⟩)).mpr ⟨6, 1, by decide, by decide, rfl⟩
    rw [List.append_assoc] at this
    exact this
  have hsync : (sampleCfg.syncPrefix ++ [SYNC]).isPrefixOf (leakInterest b).name = true := by
    rw [List.isPrefixOf_iff_prefix, hn]
    exact ⟨[⟨8, [6]⟩, ⟨8, [1]⟩, ⟨8, b⟩, ⟨8, List.replicate 72 0⟩, ⟨54, [1]⟩, ⟨50, [0]⟩], by simp⟩
  have hhello : ¬ (sampleCfg.syncPrefix ++ [HELLO]).isPrefixOf (leakInterest b).name = true := by
    rw [List.isPrefixOf_iff_prefix, hn]
    rintro ⟨r, hr⟩
    rw [List.append_assoc, List.append_assoc, List.append_cancel_left_eq] at hr
    simp only [List.cons_append, List.cons.injEq] at hr
    exact absurd hr.1 (by decide)
  simp only [Part.step]
  rw [if_neg hhello, if_pos hsync]
  unfold Part.onSyncInterest
  simp only [hst]
  have h6 : ((leakInterest b).name.drop (sampleCfg.syncPrefix.length + 1)).length = 6 := by rw [hn]; simp
  have hdl : Name.dropLast (leakInterest b).name 2 = leakName b := dropLast_two (leakName b) ⟨54, [1]⟩ ⟨50, [0]⟩
  simp only [h6]
  rw [if_neg (by omega)]
  simp only [show ¬ ((6 : Nat) = 4) by omega, if_false, hdl, hex]
  rw [show sampleCfg.libm = sampleLibm from rfl, show sampleCfg.extraSalt = (fun _ => 0#32) from rfl, hbf]
  rw [show sampleCfg.ibltCodec = Codec.none from rfl, show sampleCfg.expected = 4 from rfl, ht]
  simp only [Res.ok_bind]
  unfold Part.onSyncParsed
  rw [show sampleCfg.fuel = 40 from rfl, h.base, hd]
  simp only [Res.ok_bind, Bool.not_true, Bool.false_eq_true, if_false, Part.collect]
  rw [if_neg (by decide), hfind]
  rfl

/-- One more Interest that is never forgotten: it is received, its lifetime passes, its timer fires. -/
theorem leak_round {l : List Bytes} {s : Part} (h : Leaked l s) {b : Bytes} (hb : b.length = 11) (hl : b ∉ l) :
    ∃ s', Part.run sampleCfg s [.recvInterest (leakInterest b), .tick (s.now + 10), .expire (leakName b)] = .ok s' ∧
      Leaked (b :: l) s' ∧ s'.now = s.now + 10 := by
  obtain ⟨bf, t, h1⟩ := leak_parks h hb hl
  obtain ⟨m, hm⟩ : ∃ m, s.pending.set (leakName b) ⟨bf, t, some (s.now + 10), (leakInterest b).name⟩ = m := ⟨_, rfl⟩
  rw [hm] at h1
  have hfind : ∀ k, m.find k = if k = leakName b then some ⟨bf, t, some (s.now + 10), (leakInterest b).name⟩ else s.pending.find k := by
    intro k
    rw [← hm, NMap.find_set]
    simp only [eq_comm]
  have hms : NMap.Sorted m := hm ▸ NMap.sorted_set h.sorted _ _
  have h2 : Part.step sampleCfg { s with pending := m } (.tick (s.now + 10)) = .ok { s with pending := m, now := s.now + 10 } := by
    simp only [Part.step]
    rw [if_pos]
    rw [Bool.and_eq_true, decide_eq_true_eq]
    refine ⟨by omega, ?_⟩
    unfold Part.timersAfter
    rw [Bool.and_eq_true, List.all_eq_true, List.all_eq_true]
    constructor
    · rintro ⟨k, e⟩ he
      have hf := NMap.find_of_mem hms he
      rw [hfind] at hf
      split at hf
      · cases hf; simp
      · rw [h.timers k e hf]
    · rw [h.pub]
      intro e he
      cases he
  have hne : ∀ b', (leakInterest b).name ≠ leakName b' := by
    intro b' he
    have := congrArg List.length he
    simp [leakInterest, leakName] at this
  have h3 : Part.step sampleCfg { s with pending := m, now := s.now + 10 } (.expire (leakName b)) = .ok { s with
      pending := (m.set (leakName b) ⟨bf, t, none, (leakInterest b).name⟩).erase (leakInterest b).name, now := s.now + 10 } := by
    simp only [Part.step]
    rw [hfind, if_pos rfl]
    simp only [Nat.le_refl, if_true]
  refine ⟨{ s with pending := (m.set (leakName b) ⟨bf, t, none, (leakInterest b).name⟩).erase (leakInterest b).name, now := s.now + 10 },
    by unfold Part.run; simp only [foldRes, h1, h2, h3, Res.ok_bind], ?_, rfl⟩
  · have hf : ∀ k, ((m.set (leakName b) ⟨bf, t, none, (leakInterest b).name⟩).erase (leakInterest b).name).find k =
        if k = (leakInterest b).name then none else if k = leakName b then some ⟨bf, t, none, (leakInterest b).name⟩ else s.pending.find k := by
      intro k
      rw [NMap.find_erase, NMap.find_set, hfind]
      by_cases h4 : k = (leakInterest b).name <;> by_cases h5 : k = leakName b <;> simp [h4, h5, eq_comm]
    refine ⟨h.base, h.pub, NMap.sorted_erase (NMap.sorted_set hms _ _) _, fun k => ?_, fun k e he => ?_⟩
    · simp only
      rw [hf]
      by_cases hk : k = (leakInterest b).name
      · rw [if_pos hk]
        constructor
        · intro h; cases h
        · rintro ⟨b', _, h5⟩
          exact absurd (hk.symm.trans h5) (hne b')
      · rw [if_neg hk]
        by_cases hk2 : k = leakName b
        · rw [if_pos hk2]
          exact ⟨fun _ => ⟨b, by simp, hk2⟩, fun _ => rfl⟩
        · rw [if_neg hk2, h.keys]
          constructor
          · rintro ⟨b', h4, h5⟩; exact ⟨b', by simp [h4], h5⟩
          · rintro ⟨b', h4, h5⟩
            rcases List.mem_cons.mp h4 with rfl | h4
            · exact absurd h5 hk2
            · exact ⟨b', h4, h5⟩
    · simp only at he
      rw [hf] at he
      split at he
      · cases he
      · split at he
        · cases he; rfl
        · exact h.timers k e he

theorem leak_all : ∀ (l : List Bytes), l.Nodup → (∀ b ∈ l, b.length = 11) →
    ∃ ops s, Part.run sampleCfg (Part.init sampleCfg) ops = .ok s ∧ Leaked l s ∧ s.now = 10 * l.length ∧
      (∀ i, Part.Op.recvInterest i ∈ ops → i.lifetime = 10) ∧ (receivedNames ops).length = l.length
  | [], _, _ => ⟨[], Part.init sampleCfg, rfl, ⟨rfl, rfl, NMap.sorted_nil, fun k => by simp [Part.init], fun k e he => by cases he⟩, rfl,
      fun i hi => (by cases hi), rfl⟩
  | b :: l, hn, hl => by
    obtain ⟨hb, hn⟩ := List.nodup_cons.mp hn
    obtain ⟨ops, s, h1, h2, h3, h4, h8⟩ := leak_all l hn (fun b' h' => hl b' (by simp [h']))
    obtain ⟨s', h5, h6, h7⟩ := leak_round h2 (hl b (by simp)) hb
    refine ⟨ops ++ [.recvInterest (leakInterest b), .tick (s.now + 10), .expire (leakName b)], s', ?_, h6, ?_, ?_, ?_⟩
    · unfold Part.run at *
      rw [foldRes_append, h1]
      exact h5
    · rw [h7, h3, List.length_cons]; omega
    · intro i hi
      rcases List.mem_append.mp hi with hi | hi
      · exact h4 i hi
      · simp only [List.mem_cons, Part.Op.recvInterest.injEq, reduceCtorEq, List.not_mem_nil, or_false] at hi
        rw [hi]; rfl
    · unfold receivedNames at *
      rw [List.filterMap_append, List.length_append, h8]
      rfl

theorem Leaked.tick {l : List Bytes} {s : Part} (h2 : Leaked l s) {T : Nat} (hT : s.now ≤ T) :
    Part.step sampleCfg s (.tick T) = .ok { s with now := T } := by
  simp only [Part.step]
  rw [if_pos]
  rw [Bool.and_eq_true, decide_eq_true_eq]
  refine ⟨hT, ?_⟩
  unfold Part.timersAfter
  rw [Bool.and_eq_true, List.all_eq_true, List.all_eq_true]
  constructor
  · rintro ⟨k, e⟩ he
    rw [h2.timers k e (NMap.find_of_mem h2.sorted he)]
  · rw [h2.pub]
    intro e he
    cases he

theorem Leaked.length {l : List Bytes} {s : Part} (h2 : Leaked l s) (hn : l.Nodup) : s.pending.length = l.length := by
  have hk : s.pending.keys.Perm (l.map leakName) := by
    rw [List.perm_ext_iff_of_nodup (NMap.keys_nodup h2.sorted) (hn.map (fun _ _ => leakName_inj))]
    intro k
    rw [NMap.mem_keys, h2.keys, List.mem_map]
    constructor
    · rintro ⟨b, h6, rfl⟩; exact ⟨b, h6, rfl⟩
    · rintro ⟨b, h6, rfl⟩; exact ⟨b, h6, rfl⟩
  have := hk.length_eq
  unfold NMap.keys at this
  rwa [List.length_map, List.length_map] at this

/-- What happens to Interests for a segment of a reply: for any number of different tables (there are 256^11 of 11 bytes) there is a
run in which one Interest of 10 ms lifetime is received for each, and at any later time `T`, all timers having fired, the producer
that never published anything still keeps all of them. -/
theorem c112_grows (l : List Bytes) (hn : l.Nodup) (hl : ∀ b ∈ l, b.length = 11) (T : Nat) (hT : 10 * l.length ≤ T) :
    ∃ ops s, Part.run sampleCfg (Part.init sampleCfg) ops = .ok s ∧ s.now = T ∧ s.pending.length = l.length ∧
      (∀ k e, s.pending.find k = some e → e.timer = none) ∧ (∀ i, Part.Op.recvInterest i ∈ ops → i.lifetime = 10) ∧
      (receivedNames ops).length = l.length := by
  obtain ⟨ops, s, h1, h2, h3, h4, h5⟩ := leak_all l hn hl
  refine ⟨ops ++ [.tick T], { s with now := T }, ?_, rfl, ?_, h2.timers, ?_, ?_⟩
  · unfold Part.run at *
    rw [foldRes_append, h1]
    simp only [Res.ok_bind, foldRes, h2.tick (T := T) (by omega)]
  · exact h2.length hn
  · intro i hi
    rcases List.mem_append.mp hi with hi | hi
    · exact h4 i hi
    · simp at hi
  · unfold receivedNames at *
    rw [List.filterMap_append, List.length_append, h5]
    rfl

/-- C112 is false as stated: an Interest for a segment of a reply, of 10 ms lifetime, is still parked after 1000 ms without any Interest. -/
theorem c112_false : ¬ Spec.NoAccumulation := by
  intro h
  have hn : [List.replicate 11 (0#8)].Nodup := by simp
  obtain ⟨ops, s, h1, h2, h3, h4, _⟩ := leak_all [List.replicate 11 0#8] hn (by simp)
  have h3' : s.now = 10 := h3
  have := h sampleCfg sampleCfg_wf ops [.tick 1000] s { s with now := 1000 } 10 h1
    (by unfold Part.run; simp only [foldRes, h2.tick (T := 1000) (by omega), Res.ok_bind]) (fun i hi => (h4 i hi).le)
    (by simp only; rw [h3']; decide)
  have h5 : s.pending.length = 1 := h2.length hn
  rw [show ({ s with now := 1000 } : Part).pending = s.pending from rfl, h5] at this
  exact absurd this (by decide)

/-- Non-vacuity for C112: of two Interests received 2000 ms apart the second one is parked, the first one is not any more. -/
example : ((Part.run sampleCfg (Part.init sampleCfg) [.recvInterest ⟨leakName (List.replicate 11 0#8), 10, 1⟩, .tick 10,
      .expire (leakName (List.replicate 11 0#8)), .tick 2000, .recvInterest ⟨leakName (List.replicate 11 1#8), 10, 1⟩]).get?.map fun s =>
      (s.now, s.pending.map (fun e => e.1)))
    = some (2000, [leakName (List.replicate 11 1#8)]) := by decide +kernel

end PSync
