import Verif.Spec.Replica
import Verif.Props.PartialSync
import Verif.Props.ProducerBase
import Verif.Proofs.PubSubProducer
/-!
C98: producers with the same publications are interchangeable.
-/
namespace PSync
open Spec

/-- The same publications, in terms of what the handlers use. -/
structure SameBase (b b' : Base) : Prop where
  prefixes : b.prefixes = b'.prefixes
  iblt : b.iblt = b'.iblt
  left : ∀ h, b.biMap.findLeft h = b'.biMap.findLeft h

theorem left_iff {e : Nat} {b : Base} (hi : b.Inv) (hx : b.Exact e) (h : U32) (n : Name) :
    b.biMap.findLeft h = some n ↔ h = nameHash n ∧ IsLive b.prefixes.find n := by
  constructor
  · intro hf
    exact hi.bm _ _ (BiMap.findLeft_some hf)
  · rintro ⟨rfl, p, s, hp, hs, rfl⟩
    exact BiMap.findLeft_of_mem hi.nodupL (hx.all p s hp hs)

theorem sameBase_of {cfg : Cfg} {version : Nat → Nat} {s s' : Part} (he : 0 < cfg.expected) (hs : Part.Reach cfg s)
    (hs' : Part.Reach { cfg with version := version } s') (hc : CollisionFree s.base.hist) (hc' : CollisionFree s'.base.hist)
    (h : ∀ p, s.base.getSeqNo p = s'.base.getSeqNo p) : SameBase s.base s'.base := by
  have hi := Part.reach_inv hs
  have hi' := Part.reach_inv hs'
  have hp : s.base.prefixes = s'.base.prefixes := NMap.ext hi.sorted hi'.sorted h
  refine ⟨hp, ?_, ?_⟩
  · exact (c22_same_ibf_partial cfg { cfg with version := version } he rfl _ _ (.inr ⟨s, hs, rfl⟩) (.inr ⟨s', hs', rfl⟩) hc hc'
      (fun p x _ => by rw [h])).1
  · intro k
    have e1 := left_iff hi (Part.reach_exact hs hc) k
    have e2 := left_iff hi' (Part.reach_exact hs' hc') k
    rw [← hp] at e2
    cases hf : s.base.biMap.findLeft k with
    | some n => exact ((e2 n).mpr ((e1 n).mp hf)).symm
    | none =>
      cases hf' : s'.base.biMap.findLeft k with
      | none => rfl
      | some n => rw [(e1 n).mpr ((e2 n).mp hf')] at hf; cases hf

theorem collect_congr {b b' : Base} (h : ∀ k, b.biMap.findLeft k = b'.biMap.findLeft k) (bf : Bloom) (ks : List U32) (acc : List Name) :
    Part.collect b bf ks acc = Part.collect b' bf ks acc := by
  induction ks generalizing acc with
  | nil => rfl
  | cons k ks ih =>
    unfold Part.collect
    rw [h k]
    cases b'.biMap.findLeft k with
    | none => exact ih acc
    | some n =>
      show Res.bind _ _ = Res.bind _ _
      congr 1
      funext sub
      exact ih _

/-- The packets of two replies that differ in the version. -/
theorem segment_same (n : Name) (v v' : Nat) (buf : Bytes) (fr k : Nat) :
    SamePackets (match (segmentData (n.appendVersion v) buf fr)[k]? with | some d => [d] | none => [])
      (match (segmentData (n.appendVersion v') buf fr)[k]? with | some d => [d] | none => []) := by
  unfold segmentData
  simp only [List.getElem?_map]
  cases (List.range (chunks maxSegment buf).length)[k]? with
  | none => trivial
  | some j =>
    refine ⟨.inr ⟨n, v, v', ⟨TlvType.segment, nniBytes j⟩, ?_, ?_, rfl, rfl, rfl, rfl⟩, trivial⟩
    · simp [Name.appendVersion, Name.appendSegment, TlvType.version]
    · simp [Name.appendVersion, Name.appendSegment, TlvType.version]

theorem publish_same (cfg : Cfg) (version : Nat → Nat) (s s' : Part) (i : Interest) (dn : Name) (buf : Bytes) (fr : Nat) :
    SameFate i s s' (Part.publish cfg s i.name dn buf fr) (Part.publish { cfg with version := version } s' i.name dn buf fr) := by
  unfold Part.publish SegPub.publish
  cases hl : i.name.getFromEnd 1 with
  | throw e => exact .throws e
  | ub u => exact .undefined u
  | hang => exact .hangs
  | ok last =>
    simp only [Res.ok_bind]
    cases hg : (if last.isSegment then last.toNumber else .ok 0) with
    | throw e => exact .throws e
    | ub u => exact .undefined u
    | hang => exact .hangs
    | ok seg =>
      simp only [Res.ok_bind]
      exact .sent _ _ _ _ rfl rfl (segment_same dn _ _ buf fr seg) rfl rfl rfl rfl

theorem nack_same (cfg : Cfg) (version : Nat → Nat) (s s' : Part) (i : Interest) (n : Name) (h : s.base.iblt = s'.base.iblt) :
    SameFate i s s' (Res.bind (nackData cfg s.base n) fun d => .ok (s.emit (.data d)))
      (Res.bind (nackData { cfg with version := version } s'.base n) fun d => .ok (s'.emit (.data d))) := by
  unfold nackData
  rw [h]
  cases s'.base.iblt.toComponent cfg.ibltCodec with
  | throw e => exact .throws e
  | ub u => exact .undefined u
  | hang => exact .hangs
  | ok c =>
    simp only [Res.ok_bind]
    exact .sent _ _ [_] [_] rfl rfl ⟨.inl rfl, trivial⟩ rfl rfl rfl rfl

theorem silent_same (i : Interest) (s s' : Part) : SameFate i s s' (.ok s) (.ok s') :=
  .sent s s' [] [] (by simp) (by simp) trivial rfl rfl rfl rfl

/-- What the handler has read from a sync Interest are its fields. -/
theorem parsed_fields {cfg : Cfg} {i : Interest} (hp : (cfg.syncPrefix ++ [SYNC]) <+: i.name) {count fpp : Nat} {c3 c4 : Component} {bf : Bloom}
    {ib : Table} (hn : ¬((i.name.drop (cfg.syncPrefix.length + 1)).length ≠ 4 ∧ (i.name.drop (cfg.syncPrefix.length + 1)).length ≠ 6))
    (h1 : Part.extract (if (i.name.drop (cfg.syncPrefix.length + 1)).length = 4 then i.name else Name.dropLast i.name 2) = .ok (count, fpp, c3, c4))
    (h2 : Bloom.ofComponent cfg.libm cfg.extraSalt count (cfg.libm.ofThousandths fpp) c3 = .ok bf)
    (h3 : Table.initialize cfg.ibltCodec cfg.expected c4 = .ok ib) :
    SyncFields cfg (if (i.name.drop (cfg.syncPrefix.length + 1)).length = 4 then i.name else Name.dropLast i.name 2) bf ib := by
  have key : ∀ n a1 a2 a3 a4, n = (cfg.syncPrefix ++ [SYNC]) ++ [a1, a2, a3, a4] → Part.extract n = .ok (count, fpp, c3, c4) →
      SyncFields cfg n bf ib := by
    rintro n a1 a2 a3 a4 rfl h1
    obtain ⟨k, f, e1, e2, e3⟩ := (Part.extract_four _ _ _ _ _ _).mp h1
    cases e3
    exact ⟨a1, a2, _, _, k, _, by rw [List.append_assoc]; rfl, e1, e2, h2, h3⟩
  by_cases hl : (i.name.drop (cfg.syncPrefix.length + 1)).length = 4
  · rw [if_pos hl] at h1 ⊢
    obtain ⟨a1, a2, a3, a4, e⟩ := Part.split_four hp (by simpa using hl)
    exact key _ _ _ _ _ e h1
  · rw [if_neg hl] at h1 ⊢
    have hl6 : (i.name.drop (cfg.syncPrefix.length + 1)).length = 6 := by omega
    obtain ⟨a1, a2, a3, a4, v, g, e⟩ := Part.split_six hp (by simpa using hl6)
    refine key _ a1 a2 a3 a4 ?_ h1
    rw [e, show (cfg.syncPrefix ++ [SYNC] ++ [a1, a2, a3, a4, v, g]) = (cfg.syncPrefix ++ [SYNC] ++ [a1, a2, a3, a4]) ++ [v, g] by simp,
      dropLast_two]

theorem parsed_same (cfg : Cfg) (version : Nat → Nat) {s s' : Part} (hs : Part.Reach cfg s) (hs' : Part.Reach { cfg with version := version } s')
    (hb : SameBase s.base s'.base) (i : Interest) {key : Name} {bf : Bloom} {iblt : Table} (hf : SyncFields cfg key bf iblt) :
    SameFate i s s' (Part.onSyncParsed cfg s i key bf iblt) (Part.onSyncParsed { cfg with version := version } s' i key bf iblt) := by
  unfold Part.onSyncParsed
  rw [hb.iblt]
  show SameFate i s s' _ (Res.bind (Table.diff cfg.fuel s'.base.iblt iblt) _)
  cases Table.diff cfg.fuel s'.base.iblt iblt with
  | throw e => exact .throws e
  | ub u => exact .undefined u
  | hang => exact .hangs
  | ok diff =>
    simp only [Res.ok_bind]
    by_cases hd : (!diff.canDecode) = true
    · rw [if_pos hd, if_pos hd]
      exact nack_same cfg version s s' i key hb.iblt
    · rw [if_neg hd, if_neg hd, collect_congr hb.left]
      cases Part.collect s'.base bf diff.positive [] with
      | throw e => exact .throws e
      | ub u => exact .undefined u
      | hang => exact .hangs
      | ok content =>
        simp only [Res.ok_bind]
        show SameFate i s s' _ (if (decide (diff.positive.length + diff.negative.length ≥ Part.threshold cfg) || !content.isEmpty) = true then _ else _)
        by_cases hc : (decide (diff.positive.length + diff.negative.length ≥ Part.threshold cfg) || !content.isEmpty) = true
        · rw [if_pos hc, if_pos hc]
          show SameFate i s s' _ (Res.bind (s'.base.iblt.toComponent cfg.ibltCodec) _)
          cases s'.base.iblt.toComponent cfg.ibltCodec with
          | throw e => exact .throws e
          | ub u => exact .undefined u
          | hang => exact .hangs
          | ok c => exact publish_same cfg version s s' i _ _ _
        · rw [if_neg hc, if_neg hc]
          exact .parked _ _ key bf iblt (Part.parkedAs hs i hf) (Part.parkedAs hs' i hf)

/-- C98, partial: two producers with the same sync prefix and options and the same publications do the same with every Interest that neither
answers from its store: they send packets that differ at most in the version, or both send a nack, or both park it, or both do nothing, and if
one of them fails the other fails in the same way.  The clocks, what is parked and stored, and the histories may differ.  (Missing: histories
in which two publications that were current at the same time have the same 32-bit hash, `c98_false`.) -/
theorem c98_interest_partial (cfg : Cfg) (version : Nat → Nat) (s s' : Part) (he : 0 < cfg.expected) (hs : Part.Reach cfg s)
    (hs' : Part.Reach { cfg with version := version } s') (hc : CollisionFree s.base.hist) (hc' : CollisionFree s'.base.hist)
    (h : ∀ p, s.base.getSeqNo p = s'.base.getSeqNo p) (i : Interest) (hst : s.pub.replyFromStore i.name = none)
    (hst' : s'.pub.replyFromStore i.name = none) :
    SameFate i s s' (Part.step cfg s (.recvInterest i)) (Part.step { cfg with version := version } s' (.recvInterest i)) := by
  have hb := sameBase_of he hs hs' hc hc' h
  simp only [Part.step]
  by_cases hh : (cfg.syncPrefix ++ [HELLO]).isPrefixOf i.name = true
  · rw [if_pos hh, if_pos hh]
    unfold Part.onHelloInterest
    rw [hst, hst']
    show SameFate i s s' (Res.bind (i.name.getFromEnd 1) _) (Res.bind (i.name.getFromEnd 1) _)
    cases i.name.getFromEnd 1 with
    | throw e => exact .throws e
    | ub u => exact .undefined u
    | hang => exact .hangs
    | ok last =>
      simp only [Res.ok_bind]
      cases (if last = HELLO then Res.ok HELLO else i.name.getFromEnd 4) with
      | throw e => exact .throws e
      | ub u => exact .undefined u
      | hang => exact .hangs
      | ok c4 =>
        simp only [Res.ok_bind]
        by_cases h4 : c4 ≠ HELLO
        · rw [if_pos h4, if_pos h4]; exact silent_same i s s'
        · rw [if_neg h4, if_neg h4, hb.iblt, show Part.helloContent s.base = Part.helloContent s'.base by unfold Part.helloContent; rw [hb.prefixes]]
          cases s'.base.iblt.toComponent cfg.ibltCodec with
          | throw e => exact .throws e
          | ub u => exact .undefined u
          | hang => exact .hangs
          | ok c => exact publish_same cfg version s s' i _ _ _
  · rw [if_neg hh, if_neg hh]
    by_cases hp : (cfg.syncPrefix ++ [SYNC]).isPrefixOf i.name = true
    · rw [if_pos hp, if_pos hp]
      have hp' := List.isPrefixOf_iff_prefix.mp hp
      unfold Part.onSyncInterest
      rw [hst, hst']
      simp only []
      by_cases hn : (i.name.drop (cfg.syncPrefix.length + 1)).length ≠ 4 ∧ (i.name.drop (cfg.syncPrefix.length + 1)).length ≠ 6
      · rw [if_pos hn, if_pos hn]; exact silent_same i s s'
      · rw [if_neg hn, if_neg hn]
        cases h1 : Part.extract (if (i.name.drop (cfg.syncPrefix.length + 1)).length = 4 then i.name else Name.dropLast i.name 2) with
        | throw e => exact silent_same i s s'
        | ub u => exact .undefined u
        | hang => exact .hangs
        | ok x =>
          obtain ⟨count, fpp, c3, c4⟩ := x
          simp only []
          cases h2 : Bloom.ofComponent cfg.libm cfg.extraSalt count (cfg.libm.ofThousandths fpp) c3 with
          | throw e => exact silent_same i s s'
          | ub u => exact .undefined u
          | hang => exact .hangs
          | ok bf =>
            cases h3 : Table.initialize cfg.ibltCodec cfg.expected c4 with
            | throw e => exact silent_same i s s'
            | ub u => exact .undefined u
            | hang => exact .hangs
            | ok ib => exact parsed_same cfg version hs hs' hb i (parsed_fields hp' hn h1 h2 h3)
    · rw [if_neg hp, if_neg hp]; exact silent_same i s s'

/-! ### publishName -/

/-- Pieces of a buffer as `publish` makes them. -/
def IsCut (xs : List Bytes) : Prop :=
  xs ≠ [] ∧ (∀ x ∈ xs, x.length ≤ 4400) ∧ (∀ i x, xs[i]? = some x → i + 1 < xs.length → x.length = 4400) ∧ (xs.flatten ≠ [] → ∀ x ∈ xs, x ≠ [])

theorem IsCut.tail {x y : Bytes} {xs : List Bytes} (h : IsCut (x :: y :: xs)) : x.length = 4400 ∧ IsCut (y :: xs) ∧ y ≠ [] := by
  obtain ⟨_, h2, h3, h4⟩ := h
  have hx : x.length = 4400 := h3 0 x rfl (by simp)
  have hne : (x :: y :: xs).flatten ≠ [] := by
    intro h
    simp only [List.flatten_cons, List.append_eq_nil_iff] at h
    rw [h.1] at hx
    cases hx
  refine ⟨hx, ⟨by simp, fun z hz => h2 z (by simp [List.mem_cons.mp hz]), fun i z hz hi => h3 (i + 1) z hz (by simp at hi ⊢; omega),
    fun _ z hz => h4 hne z (List.mem_cons_of_mem _ hz)⟩, h4 hne y (by simp)⟩

theorem cut_unique : ∀ xs ys : List Bytes, IsCut xs → IsCut ys → xs.flatten = ys.flatten → xs = ys := by
  intro xs
  induction xs with
  | nil => intro ys h; exact absurd rfl h.1
  | cons x xs ih =>
    intro ys hx hy he
    match ys, hy with
    | [], hy => exact absurd rfl hy.1
    | y :: ys, hy =>
      match xs, ys, ih, hx, hy, he with
      | [], [], _, _, _, he => simpa using he
      | [], y' :: ys, _, hx, hy, he =>
        obtain ⟨h1, _, h3⟩ := hy.tail
        have := congrArg List.length he
        have h4 := hx.2.1 x (by simp)
        have h5 : 0 < y'.length := List.length_pos_iff.mpr h3
        simp at this
        omega
      | x' :: xs, [], _, hx, hy, he =>
        obtain ⟨h1, _, h3⟩ := hx.tail
        have := congrArg List.length he
        have h4 := hy.2.1 y (by simp)
        have h5 : 0 < x'.length := List.length_pos_iff.mpr h3
        simp at this
        omega
      | x' :: xs, y' :: ys, ih, hx, hy, he =>
        obtain ⟨h1, hx', _⟩ := hx.tail
        obtain ⟨h2, hy', _⟩ := hy.tail
        rw [List.flatten_cons, List.flatten_cons (L := y' :: ys)] at he
        obtain ⟨rfl, he'⟩ := List.append_inj he (by rw [h1, h2])
        rw [ih _ hx' hy' he']

theorem segmentation_cut {n : Name} {buf : Bytes} {fr : Nat} {segs : List Data} (h : IsSegmentation n buf fr segs) : IsCut (segs.map Data.content) := by
  refine ⟨?_, ?_, ?_, ?_⟩
  · intro hn
    have := h.nonempty
    rw [List.map_eq_nil_iff] at hn
    rw [hn] at this
    cases this
  · intro x hx
    obtain ⟨d, hd, rfl⟩ := List.mem_map.mp hx
    exact h.size d hd
  · intro i x hx hi
    rw [List.getElem?_map, Option.map_eq_some_iff] at hx
    obtain ⟨d, hd, rfl⟩ := hx
    exact h.full i d hd (by simpa using hi)
  · intro hne x hx
    obtain ⟨d, hd, rfl⟩ := List.mem_map.mp hx
    exact h.used (by rwa [h.content] at hne) d hd

theorem sentFor_same {iname dn : Name} {buf : Bytes} {fr : Nat} {ds ds' : List Data} (h : SentFor iname dn buf fr ds)
    (h' : SentFor iname dn buf fr ds') : SamePackets ds ds' := by
  obtain ⟨v, segs, hs, rfl⟩ := h
  obtain ⟨v', segs', hs', rfl⟩ := h'
  have hc := cut_unique _ _ (segmentation_cut hs) (segmentation_cut hs') (hs.content.trans hs'.content.symm)
  have hl : segs.length = segs'.length := by simpa using congrArg List.length hc
  have key : ∀ k : Nat, SamePackets segs[k]?.toList segs'[k]?.toList := by
    intro k
    cases hk : segs[k]? with
    | none =>
      have : segs'[k]? = none := by rw [List.getElem?_eq_none_iff] at hk ⊢; omega
      rw [this]; trivial
    | some d =>
      have hlt : k < segs'.length := by
        obtain ⟨hk', _⟩ := List.getElem?_eq_some_iff.mp hk
        omega
      rw [List.getElem?_eq_getElem hlt]
      have hk' : segs'[k]? = some segs'[k] := List.getElem?_eq_getElem hlt
      generalize segs'[k] = d' at hk' ⊢
      have m := List.mem_of_getElem? hk
      have m' := List.mem_of_getElem? hk'
      have hcont : d'.content = d.content := by
        have := congrArg (fun l => l[k]?) hc
        simp only [List.getElem?_map, hk, hk', Option.map_some, Option.some.injEq] at this
        exact this.symm
      refine ⟨.inr ⟨dn, v, v', ⟨50, nniBytes k⟩, ?_, ?_, ?_, hcont, ?_, ?_⟩, trivial⟩
      · rw [hs.name k d hk]; simp [Name.appendVersion, TlvType.version]
      · rw [hs'.name k d' hk']; simp [Name.appendVersion, TlvType.version]
      · rw [(hs.fresh d m).2, (hs'.fresh d' m').2]
      · rw [(hs.fresh d m).1, (hs'.fresh d' m').1]
      · rw [hs.final d m, hs'.final d' m', hl]
  unfold asked
  cases iname.getLast? with
  | none => trivial
  | some c =>
    simp only []
    split
    · cases readNni c.value <;> exact key _
    · exact key _

theorem samePackets_append {a a' b b' : List Data} (h : SamePackets a a') (h2 : SamePackets b b') : SamePackets (a ++ b) (a' ++ b') := by
  induction a generalizing a' with
  | nil =>
    cases a' with
    | nil => exact h2
    | cons _ _ => exact h.elim
  | cons x a ih =>
    cases a' with
    | nil => exact h.elim
    | cons y a' => exact ⟨h.1, ih h.2⟩

theorem partReply_same {cfg : Cfg} {version : Nat → Nat} {t : Table} {iname key : Name} {content : List Name} {ds ds' : List Data}
    (h : PartReply cfg t iname key content ds) (h' : PartReply { cfg with version := version } t iname key content ds') : SamePackets ds ds' := by
  obtain ⟨c, hc, h⟩ := h
  obtain ⟨c', hc', h'⟩ := h'
  have : c = c' := by
    have := hc.symm.trans hc'
    simpa using this
  subst this
  exact sentFor_same h h'

theorem served_cons {cfg : Cfg} {t : Table} {p : Name} {x : Nat} {n : Name} {e : PPending} {es : List (Name × PPending)} {ds : List Data}
    {kept : List (Name × PPending)} (h : Served cfg t p x ((n, e) :: es) ds kept) :
    ∃ diff packets dr kr, Table.diff cfg.fuel t e.iblt = .ok diff ∧ Served cfg t p x es dr kr ∧ ds = packets ++ dr ∧
      ((diff.canDecode = false ∧ packets = [] ∧ kept = kr) ∨
       (diff.canDecode = true ∧ e.bf.contains p = .ok true ∧ PartReply cfg t n n [Name.appendNumber p x] packets ∧ kept = kr) ∨
       (diff.canDecode = true ∧ e.bf.contains p = .ok false ∧ cfg.expected / 2 ≤ diff.positive.length + diff.negative.length ∧
         PartReply cfg t n n [] packets ∧ kept = kr) ∨
       (diff.canDecode = true ∧ e.bf.contains p = .ok false ∧ diff.positive.length + diff.negative.length < cfg.expected / 2 ∧ packets = [] ∧
         kept = (n, e) :: kr)) := by
  cases h with
  | undecodable _ _ diff h1 h2 hs => exact ⟨diff, [], _, _, h1, hs, rfl, .inl ⟨h2, rfl, rfl⟩⟩
  | subscribed _ _ diff packets h1 h2 h3 h4 hs => exact ⟨diff, packets, _, _, h1, hs, rfl, .inr (.inl ⟨h2, h3, h4, rfl⟩)⟩
  | behind _ _ diff packets h1 h2 h3 h4 h5 hs => exact ⟨diff, packets, _, _, h1, hs, rfl, .inr (.inr (.inl ⟨h2, h3, h4, h5, rfl⟩))⟩
  | keep _ _ diff h1 h2 h3 h4 hs => exact ⟨diff, [], _, _, h1, hs, rfl, .inr (.inr (.inr ⟨h2, h3, h4, rfl, rfl⟩))⟩

/-- Two producers with the same IBF serve the same parked Interests in the same way. -/
theorem served_same {cfg : Cfg} {version : Nat → Nat} {t : Table} {p : Name} {x : Nat} : ∀ (a b : List (Name × PPending)) {ds ds' : List Data}
    {kept kept' : List (Name × PPending)}, Served cfg t p x a ds kept → Served { cfg with version := version } t p x b ds' kept' →
    SameParked a b → SamePackets ds ds' ∧ SameParked kept kept' := by
  intro a
  induction a with
  | nil =>
    intro b ds ds' kept kept' h h' hp
    cases b with
    | cons _ _ => simp [SameParked] at hp
    | nil => cases h; cases h'; exact ⟨trivial, rfl⟩
  | cons e a ih =>
    intro b ds ds' kept kept' h h' hp
    cases b with
    | nil => simp [SameParked] at hp
    | cons e' b =>
      obtain ⟨n, e⟩ := e
      obtain ⟨n', e'⟩ := e'
      simp only [SameParked, List.map_cons, List.cons.injEq, Prod.mk.injEq] at hp
      obtain ⟨⟨rfl, hbf, hib⟩, hp⟩ := hp
      obtain ⟨diff, pk, dr, kr, h1, hs, rfl, hcase⟩ := served_cons h
      obtain ⟨diff', pk', dr', kr', h1', hs', rfl, hcase'⟩ := served_cons h'
      have h1' : Table.diff cfg.fuel t e'.iblt = .ok diff' := h1'
      rw [← hib, h1, Res.ok.injEq] at h1'
      subst h1'
      rw [← hbf] at hcase'
      obtain ⟨i1, i2⟩ := ih b hs hs' hp
      rcases hcase with ⟨c1, rfl, rfl⟩ | ⟨c1, c2, c3, rfl⟩ | ⟨c1, c2, c3, c4, rfl⟩ | ⟨c1, c2, c3, rfl, rfl⟩ <;>
      rcases hcase' with ⟨d1, rfl, rfl⟩ | ⟨d1, d2, d3, rfl⟩ | ⟨d1, d2, d3, d4, rfl⟩ | ⟨d1, d2, d3, rfl, rfl⟩ <;>
      first
        | exact ⟨i1, i2⟩
        | (rw [c1] at d1; cases d1; done)
        | (rw [c2] at d2; cases d2; done)
        | exact ⟨samePackets_append (partReply_same c3 d3) i1, i2⟩
        | exact ⟨samePackets_append (partReply_same c4 d4) i1, i2⟩
        | (have d3 : _ < cfg.expected / 2 := d3; omega)
        | (have d3 : cfg.expected / 2 ≤ _ := d3; omega)
        | (refine ⟨i1, ?_⟩
           unfold SameParked at i2 ⊢
           simp [i2, hbf, hib])

/-- C98, partial: if two producers with the same publications and the same parked Interests publish the same, they have the same publications
again, send packets that differ at most in the version, and keep the same Interests. -/
theorem c98_publish_partial (cfg : Cfg) (version : Nat → Nat) (s s' t t' : Part) (he : 0 < cfg.expected) (hs : Part.Reach cfg s)
    (hs' : Part.Reach { cfg with version := version } s') (h : ∀ p, s.base.getSeqNo p = s'.base.getSeqNo p)
    (hk : SameParked s.pending s'.pending) (p : Name) (seq : Option Nat) (ht : Part.step cfg s (.publishName p seq) = .ok t)
    (ht' : Part.step { cfg with version := version } s' (.publishName p seq) = .ok t')
    (hc : CollisionFree t.base.hist) (hc' : CollisionFree t'.base.hist) :
    (∀ q, t.base.getSeqNo q = t'.base.getSeqNo q) ∧ SameParked t.pending t'.pending ∧
      ∃ ds ds', t.log = s.log ++ ds.map Out.data ∧ t'.log = s'.log ++ ds'.map Out.data ∧ SamePackets ds ds' := by
  cases hreg : s.base.getSeqNo p with
  | none =>
    have e1 : t = s := by
      rcases Part.publishName_ok ht with ⟨_, rfl⟩ | ⟨cur, b, h1, _⟩
      · rfl
      · rw [Base.getSeqNo, h1] at hreg; cases hreg
    have e2 : t' = s' := by
      rw [h] at hreg
      rcases Part.publishName_ok ht' with ⟨_, rfl⟩ | ⟨cur, b, h1, _⟩
      · rfl
      · rw [Base.getSeqNo, h1] at hreg; cases hreg
    subst e1 e2
    exact ⟨h, hk, [], [], by simp, by simp, trivial⟩
  | some cur0 =>
    have hreg' : s'.base.getSeqNo p = some cur0 := by rw [← h]; exact hreg
    have hsame : ∀ q, t.base.getSeqNo q = t'.base.getSeqNo q := by
      intro q
      rcases Part.publishName_ok ht with ⟨h1, _⟩ | ⟨cur, b, h1, h2, _, rfl⟩
      · rw [Base.getSeqNo, h1] at hreg; cases hreg
      rcases Part.publishName_ok ht' with ⟨h1', _⟩ | ⟨cur', b', h1', h2', _, rfl⟩
      · rw [Base.getSeqNo, h1'] at hreg'; cases hreg'
      have ec : cur = cur' := by
        have := h p
        rw [Base.getSeqNo, Base.getSeqNo, h1, h1'] at this
        exact Option.some.inj this
      subst ec
      have hq := h q
      unfold Base.getSeqNo at hq ⊢
      rw [Base.find_updateSeqNo h2, Base.find_updateSeqNo h2', h1, h1', hq]
    have hi : t.base.iblt = t'.base.iblt := (sameBase_of he (Part.Reach.next hs ht) (Part.Reach.next hs' ht') hc hc' hsame).iblt
    obtain ⟨x, ds, hx, hsv, hl⟩ := c42_publish_serves cfg s t hs p seq (by rw [hreg]; rfl) ht
    obtain ⟨x', ds', hx', hsv', hl'⟩ := c42_publish_serves _ s' t' hs' p seq (by rw [hreg']; rfl) ht'
    have ex : x = x' := by
      have := hsame p
      rw [hx, hx'] at this
      exact Option.some.inj this
    subst ex
    rw [← hi] at hsv'
    obtain ⟨g1, g2⟩ := served_same _ _ hsv hsv' hk
    exact ⟨hsame, g2, ds, ds', hl, hl', g1⟩

/-! ### The claim is false after a collision -/

/-- The part of a name before the version, for packets that differ only there. -/
theorem sameButVersion_name {d d' : Data} (h : SameButVersion d d') : List.dropLast (List.dropLast d.name) = List.dropLast (List.dropLast d'.name) := by
  rcases h with rfl | ⟨n, v, v', g, h1, h2, _⟩
  · rfl
  · have e : ∀ c : Component, List.dropLast (List.dropLast (n ++ [c, g])) = n := by
      intro c
      rw [show n ++ [c, g] = (n ++ [c]) ++ [g] by simp, List.dropLast_concat, List.dropLast_concat]
    rw [h1, h2, e, e]

def directOps : List Part.Op := [.addUserNode pX, .publishName pX none, .addUserNode pY, .publishName pY (some 2)]
def helloInterest : Interest := ⟨sampleCfg.syncPrefix ++ [HELLO], 1000, 1⟩

/-- What two runs make of a hello Interest. -/
def helloNames (ops : List Part.Op) : Option (NMap Nat × List Out × Bool × List Out) :=
  match Part.run sampleCfg (Part.init sampleCfg) ops with
  | .ok s => match Part.step sampleCfg s (.recvInterest helloInterest) with
    | .ok t => some (s.base.prefixes, s.log, (s.pub.replyFromStore helloInterest.name).isNone, t.log)
    | _ => none
  | _ => none

def packetNames (os : List Out) : List Name := os.filterMap (fun o => match o with | .data d => some (List.dropLast (List.dropLast d.name)) | _ => none)

/-- C98 is false: two producers that have published /xvm 1 and /akqi 2, one of them by way of /akqi 1, which has the hash of /xvm 1, send
different hello replies. -/
theorem c98_false : ¬ Spec.ReplicasInterchangeable := by
  intro h
  have hd : ((helloNames collisionOps).bind fun a => (helloNames directOps).map fun b =>
      decide (a.1 = b.1) && decide (a.2.1 = []) && decide (b.2.1 = []) && a.2.2.1 && b.2.2.1 && decide (packetNames a.2.2.2 ≠ packetNames b.2.2.2)) = some true := by
    decide +kernel
  unfold helloNames at hd
  cases h1 : Part.run sampleCfg (Part.init sampleCfg) collisionOps with
  | throw _ => simp [h1] at hd
  | ub _ => simp [h1] at hd
  | hang => simp [h1] at hd
  | ok s =>
  cases h2 : Part.run sampleCfg (Part.init sampleCfg) directOps with
  | throw _ => simp [h2] at hd
  | ub _ => simp [h2] at hd
  | hang => simp [h2] at hd
  | ok s' =>
  simp only [h1, h2] at hd
  cases h3 : Part.step sampleCfg s (.recvInterest helloInterest) with
  | throw _ => simp [h3] at hd
  | ub _ => simp [h3] at hd
  | hang => simp [h3] at hd
  | ok t =>
  cases h4 : Part.step sampleCfg s' (.recvInterest helloInterest) with
  | throw _ => simp [h4] at hd
  | ub _ => simp [h4] at hd
  | hang => simp [h4] at hd
  | ok t' =>
  simp only [h3, h4, Option.bind_some, Option.map_some, Option.some.injEq, Bool.and_eq_true, decide_eq_true_eq, Option.isNone_iff_eq_none] at hd
  obtain ⟨⟨⟨⟨⟨g1, g2⟩, g3⟩, g4⟩, g5⟩, g6⟩ := hd
  have := h sampleCfg sampleCfg.version s s' (by decide) ⟨_, h1⟩ ⟨_, h2⟩ (fun p => by unfold Base.getSeqNo; rw [g1]) helloInterest g4 g5
  have h4' : Part.step { sampleCfg with version := sampleCfg.version } s' (.recvInterest helloInterest) = .ok t' := h4
  rw [h3, h4'] at this
  apply g6
  cases this with
  | sent _ _ ds ds' e1 e2 hp _ _ _ _ =>
    rw [e1, e2, g2, g3]
    clear e1 e2 h3 h4 h4' g6
    simp only [List.nil_append]
    induction ds generalizing ds' with
    | nil =>
      cases ds' with
      | nil => rfl
      | cons _ _ => exact hp.elim
    | cons d ds ih =>
      cases ds' with
      | nil => exact hp.elim
      | cons d' ds' =>
        have e := ih ds' hp.2
        simp only [packetNames, List.map_cons, List.filterMap_cons] at e ⊢
        rw [sameButVersion_name hp.1, e]
  | parked _ _ key bf ib k1 k2 => rw [k1.1, k2.1, g2, g3]

/-- Non-vacuity for C98: two producers that have published the same in different orders, without collisions (`collisionFree_of_check`), send the same hello reply, under different versions. -/
def earlyOps : List Part.Op := [.addUserNode pA, .addUserNode pB, .publishName pA none, .publishName pB none, .publishName pA none]
def lateOps : List Part.Op := [.addUserNode pB, .publishName pB (some 1), .addUserNode pA, .publishName pA (some 2)]

example : ∃ s s', Part.run sampleCfg (Part.init sampleCfg) earlyOps = .ok s ∧
    Part.run { sampleCfg with version := fun n => n + 77 } (Part.init sampleCfg) lateOps = .ok s' ∧
    s.base.prefixes = s'.base.prefixes ∧ checkHist s.base.hist = true ∧ checkHist s'.base.hist = true ∧ s.base.hist ≠ s'.base.hist ∧ s.base.iblt = s'.base.iblt ∧
    s.pub.replyFromStore helloInterest.name = none ∧ s'.pub.replyFromStore helloInterest.name = none ∧
    ((Part.step sampleCfg s (.recvInterest helloInterest)).get?.map fun t => packetNames t.log) =
      ((Part.step { sampleCfg with version := fun n => n + 77 } s' (.recvInterest helloInterest)).get?.map fun t => packetNames t.log) ∧
    ((Part.step sampleCfg s (.recvInterest helloInterest)).get?.map fun t => t.log) ≠
      ((Part.step { sampleCfg with version := fun n => n + 77 } s' (.recvInterest helloInterest)).get?.map fun t => t.log) := by
  refine ⟨_, _, rfl, rfl, ?_⟩
  decide +kernel

end PSync
