import Verif.Props.OtherGroup
import Verif.Props.PacketSize
import Verif.Spec.Sizes
/-!
Property C104: nodes with IBFs of different sizes ignore each other.
-/
namespace PSync
open Spec

theorem buckets_half (e : Nat) : buckets e = (e + 1) / 2 := by
  unfold buckets
  omega

/-- An IBF of one size is not one of another size. -/
theorem size_matters {cdc : Codec} (hl : cdc.Lossless) {t : Table} {c : Component} (hc : t.toComponent cdc = .ok c) {e : Nat}
    (hne : t.length ≠ 3 * buckets e) (u : Table) : Table.initialize cdc e c ≠ .ok u := by
  intro hu
  obtain ⟨_, _, h3⟩ := c02_faithful cdc e c u hu
  obtain ⟨h1, _, _⟩ := c02_faithful cdc e c u hu
  obtain ⟨y, g1, g2⟩ := hl t.encode
  unfold Table.toComponent at hc
  rw [g1] at hc
  cases hc
  rw [g2, Option.some.injEq] at h3
  have := congrArg List.length h3
  rw [Table.encode_length, Table.encode_length] at this
  omega

theorem not_ok_throws (cdc : Codec) (e : Nat) (c : Component) (h : ∀ u, Table.initialize cdc e c ≠ .ok u) :
    ∃ x, Table.initialize cdc e c = .throw x := by
  rcases (c02_accepts cdc e c).2 with ⟨u, hu⟩ | h'
  · exact absurd hu (h u)
  · exact h'

/-! ### Full sync -/

/-- The Interests of a full-sync node, with the IBF it had. -/
theorem asked_ibf {cfg : Cfg} {o : Full} (ho : Full.Reach cfg o) {n : Name} {t : Nat} (hn : Out.interest n t ∈ o.log) :
    ∃ b c, Base.Steps (fun _ => True) (Base.new cfg) b ∧ b.iblt.toComponent cfg.ibltCodec = .ok c ∧
      n = cfg.syncPrefix ++ [c, ⟨TlvType.generic, nniBytes b.numOwn⟩] := by
  obtain ⟨bs, hb, hnm, _⟩ := Full.reach_log ho hn
  have hnm : Full.syncName cfg bs = .ok n := hnm
  unfold Full.syncName at hnm
  simp only [Res.bind_eq_ok, Res.ok.injEq] at hnm
  obtain ⟨c, h1, rfl⟩ := hnm
  exact ⟨bs, c, hb.1, h1, by simp [Name.appendNumber]⟩

/-- C104: a full-sync node ignores every sync Interest of a node with an IBF of another size. -/
theorem c104_full (cfg cfg' : Cfg) (hwf : cfg.WF) (hp : cfg'.syncPrefix = cfg.syncPrefix) (hc : cfg'.ibltCodec = cfg.ibltCodec)
    (he : 0 < cfg'.expected) (hne : ¬ SameSize cfg cfg') (s o : Full) (hs : Full.Reach cfg s) (ho : Full.Reach cfg' o) (n : Name) (t : Nat)
    (hn : Out.interest n t ∈ o.log) : Ignores cfg s n := by
  obtain ⟨b, c, hb, h1, rfl⟩ := asked_ibf ho hn
  rw [hc] at h1
  have hr := hb.ranged he (Base.ranged_new cfg')
  have hno := size_matters hwf.iblt_lossless h1 (e := cfg.expected) (by
    rw [hr.1, buckets_half, buckets_half]
    unfold SameSize at hne
    omega)
  obtain ⟨x, hx⟩ := not_ok_throws _ _ _ hno
  have hst : s.pub.replyFromStore (cfg.syncPrefix ++ [c, ⟨TlvType.generic, nniBytes b.numOwn⟩]) = none := by
    refine not_in_store hs fun c2 c1 num t x y _ hi hpre => ?_
    rw [List.cons_prefix_cons] at hpre
    obtain ⟨rfl, _⟩ := hpre
    exact hno t hi
  intro lt nonce
  rw [hp]
  simp only [Full.step]
  rw [if_pos (List.isPrefixOf_iff_prefix.2 (List.prefix_append _ _))]
  unfold Full.onSyncInterest
  simp only [hst, List.drop_left]
  rw [if_neg (by simp), if_neg (by simp), getFromEnd_two, getFromEnd_last]
  simp only [Res.ok_bind]
  have hk : Component.toNumber ⟨TlvType.generic, nniBytes b.numOwn⟩ = .ok b.numOwn := by
    unfold Component.toNumber
    rw [readNni_nniBytes _ (hb.inv (Base.inv_new cfg')).ownLt]
    rfl
  rw [hk, Res.ok_bind, hx]

/-- C104: of a node with an IBF of the same size, which may have another `ibfCount`, it reads the IBF and the number of publications that
the sender had. -/
theorem c104_full_same (cfg cfg' : Cfg) (hwf : cfg.WF) (hc : cfg'.ibltCodec = cfg.ibltCodec) (he : 0 < cfg'.expected)
    (hsz : SameSize cfg cfg') (o : Full) (ho : Full.Reach cfg' o) (n : Name) (t : Nat) (hn : Out.interest n t ∈ o.log) :
    ∃ c k ibf num, n = cfg'.syncPrefix ++ [c, k] ∧ Table.initialize cfg.ibltCodec cfg.expected c = .ok ibf ∧ k.toNumber = .ok num ∧
      ibf.toComponent cfg'.ibltCodec = .ok c := by
  obtain ⟨b, c, hb, h1, rfl⟩ := asked_ibf ho hn
  have hr := hb.ranged he (Base.ranged_new cfg')
  obtain ⟨c', h2, h3⟩ := c02_round_trip cfg.ibltCodec hwf.iblt_lossless cfg.expected b.iblt
    (by rw [hr.1, nCells_eq, buckets_half, buckets_half, hsz]) hr.2
  rw [← hc, h1, Res.ok.injEq] at h2
  subst h2
  refine ⟨c, _, b.iblt, b.numOwn, rfl, h3, ?_, h1⟩
  unfold Component.toNumber
  rw [readNni_nniBytes _ (hb.inv (Base.inv_new cfg')).ownLt]
  rfl

/-! ### Partial sync -/

/-- The names of the packets of a partial-sync producer. -/
def Part.Sends (cfg : Cfg) (d : Data) : Prop :=
  (∃ key bf t r, SyncFields cfg key bf t ∧ d.name = key ++ r) ∨ ∃ r, d.name = cfg.syncPrefix ++ HELLO :: r

theorem Part.packets_named {cfg : Cfg} {s : Part} (hs : Part.Reach cfg s) {d : Data} (hd : d ∈ s.pub.store) : Part.Sends cfg d := by
  obtain ⟨ops, h⟩ := hs
  have hL : Part.Laws cfg (fun n => ∃ bf t, SyncFields cfg n bf t) (Part.Sends cfg) := by
    refine ⟨?_, ?_, ?_⟩
    · rintro n c ⟨bf, t, hf⟩ _ v buf fr d hd
      obtain ⟨i, _, hn, _⟩ := segmentData_mem hd
      exact .inl ⟨n, bf, t, _, hf, by rw [hn]; simp only [Name.appendVersion, List.append_assoc]; rfl⟩
    · rintro c _ v buf fr d hd
      obtain ⟨i, _, hn, _⟩ := segmentData_mem hd
      exact .inr ⟨_, by rw [hn]; simp only [Name.appendVersion, List.append_assoc, List.cons_append]; rfl⟩
    · rintro n b d ⟨bf, t, hf⟩ _ h
      unfold nackData at h
      simp only [Res.bind_eq_ok, Res.ok.injEq] at h
      obtain ⟨c, _, rfl⟩ := h
      exact .inl ⟨n, bf, t, _, hf, by simp only [Name.appendSegment, List.append_assoc]; rfl⟩
  exact (Part.run_put hL ops ⟨NMap.sorted_nil, fun n e h => by cases h⟩ (Part.init_put _ _) (fun i _ key bf t hf _ => ⟨bf, t, hf⟩) h).store d hd

/-- A partial-sync producer ignores sync Interests with something else than an IBF of its own size. -/
theorem Part.ignores_foreign {cfg : Cfg} {s s' : Part} (hs : Part.Reach cfg s) {c1 c2 c3 c4 : Component}
    (hno : ∀ u, Table.initialize cfg.ibltCodec cfg.expected c4 ≠ .ok u) {lt nonce : Nat}
    (h : Part.step cfg s (.recvInterest ⟨cfg.syncPrefix ++ [SYNC, c1, c2, c3, c4], lt, nonce⟩) = .ok s') : s' = s := by
  have hkey : ∀ key bf t r, SyncFields cfg key bf t → ¬ (cfg.syncPrefix ++ [SYNC, c1, c2, c3, c4]) <+: key ++ r := by
    rintro key bf t r ⟨d1, d2, d3, d4, _, _, rfl, _, _, _, hi⟩ hpre
    rw [List.append_assoc, List.prefix_append_right_inj] at hpre
    simp only [List.cons_append, List.nil_append, List.cons_prefix_cons] at hpre
    obtain ⟨_, _, _, _, rfl, _⟩ := hpre
    exact hno t hi
  have hpre : (cfg.syncPrefix ++ [SYNC]) <+: cfg.syncPrefix ++ [SYNC, c1, c2, c3, c4] :=
    ⟨[c1, c2, c3, c4], by simp⟩
  have hhel : ¬ (cfg.syncPrefix ++ [HELLO]).isPrefixOf (cfg.syncPrefix ++ [SYNC, c1, c2, c3, c4]) = true := by
    rw [List.isPrefixOf_iff_prefix, List.prefix_append_right_inj, List.cons_prefix_cons]
    rintro ⟨h, _⟩
    exact absurd h (by decide)
  simp only [Part.step] at h
  rw [if_neg hhel, if_pos (List.isPrefixOf_iff_prefix.2 hpre)] at h
  rcases Part.onSyncInterest_cases' hpre h with ⟨d, hd, rfl⟩ | ⟨_, rfl | ⟨key, bf, iblt, hf, ha, _⟩⟩
  · obtain ⟨hm, hp, _⟩ := storeFind_some hd
    have hp : (cfg.syncPrefix ++ [SYNC, c1, c2, c3, c4]) <+: d.name := by simpa [List.isPrefixOf_iff_prefix] using hp
    rcases Part.packets_named hs hm with ⟨key, bf, t, r, hf, hn⟩ | ⟨r, hn⟩
    · exact absurd (hn ▸ hp) (hkey key bf t r hf)
    · rw [hn, List.prefix_append_right_inj, List.cons_prefix_cons] at hp
      exact absurd hp.1 (show ¬ SYNC = HELLO by decide)
  · rfl
  · refine absurd ?_ (hkey key bf iblt [] hf)
    rcases ha with ha | ⟨v, g, ha⟩
    · rw [← ha, List.append_nil]
      exact List.prefix_refl _
    · obtain ⟨d1, d2, d3, d4, _, _, rfl, _⟩ := hf
      have := congrArg List.length ha
      simp at this

/-- C104: a partial-sync producer ignores the sync Interests of a consumer that carry the IBF of a producer with an IBF of another size.
(Only if its filter makes the behaviour undefined, C96, is there another outcome.) -/
theorem c104_producer (cfg cfg' : Cfg) (ccfg : CCfg) (hwf : cfg.WF) (hp : ccfg.syncPrefix = cfg.syncPrefix)
    (hc : cfg'.ibltCodec = cfg.ibltCodec) (he : 0 < cfg'.expected) (hne : ¬ SameSize cfg cfg') (s s' : Part) (o : Cons)
    (hs : Part.Reach cfg s) (ho : Cons.Reach ccfg o) (n : Name) (t : Nat) (hn : Out.interest n t ∈ o.log) (c : Component)
    (hl : n.getLast? = some c) (hi : IbfOf cfg' c) (hh : n ≠ ccfg.syncPrefix ++ [HELLO]) (lt nonce : Nat)
    (h : Part.step cfg s (.recvInterest ⟨n, lt, nonce⟩) = .ok s') : s' = s := by
  obtain ⟨bf0, _, hsh⟩ := Cons.reach_asking ho
  rcases hsh.log n t hn with hn | ⟨bf, th, c', _, _, rfl⟩
  · exact absurd hn hh
  · obtain rfl : c' = c := by simpa using hl
    rw [hp] at h
    obtain ⟨p, hpr, hic⟩ := hi
    rw [hc] at hic
    have hr := (Part.reach_steps hpr).ranged he (Base.ranged_new cfg')
    refine Part.ignores_foreign hs (size_matters hwf.iblt_lossless hic ?_) h
    rw [hr.1, buckets_half, buckets_half]
    unfold SameSize at hne
    omega

/-- C104: the IBF of a producer with an IBF of the same size is read as it was. -/
theorem c104_producer_same (cfg cfg' : Cfg) (hwf : cfg.WF) (hc : cfg'.ibltCodec = cfg.ibltCodec) (he : 0 < cfg'.expected)
    (hsz : SameSize cfg cfg') (p : Part) (hp : Part.Reach cfg' p) :
    ∃ c, p.base.iblt.toComponent cfg'.ibltCodec = .ok c ∧ Table.initialize cfg.ibltCodec cfg.expected c = .ok p.base.iblt := by
  have hr := (Part.reach_steps hp).ranged he (Base.ranged_new cfg')
  rw [hc]
  exact c02_round_trip cfg.ibltCodec hwf.iblt_lossless cfg.expected p.base.iblt (by rw [hr.1, nCells_eq, buckets_half, buckets_half, hsz]) hr.2

/-- The sample options with another `ibfCount`. -/
def sizedCfg (e : Nat) : Cfg := { sampleCfg with expected := e }

/-- Non-vacuity for C104: a node with `ibfCount` 20 has sent its first sync Interest, which a node with `ibfCount` 10 ignores. -/
example : ¬ SameSize (sizedCfg 10) (sizedCfg 20) ∧ SameSize (sizedCfg 19) (sizedCfg 20) ∧
    ∃ o s n t, Full.Reach (sizedCfg 20) o ∧ Full.Reach (sizedCfg 10) s ∧ Out.interest n t ∈ o.log ∧ Ignores (sizedCfg 10) s n := by
  refine ⟨by decide, by decide, ?_⟩
  have h : (Full.init (sizedCfg 20)).get?.map (fun o => o.log.any fun x => match x with | .interest _ _ => true | _ => false) = some true := by
    decide +kernel
  have h' : (Full.init (sizedCfg 10)).get?.map (fun _ => true) = some true := by decide +kernel
  obtain ⟨o, h1, h2⟩ := Res.of_get? h
  obtain ⟨s, h3, _⟩ := Res.of_get? h'
  obtain ⟨x, hx, hi⟩ := List.any_eq_true.1 h2
  match x, hx, hi with
  | .interest n t, hx, _ =>
    refine ⟨o, s, n, t, ⟨o, [], h1, rfl⟩, ⟨s, [], h3, rfl⟩, hx, ?_⟩
    exact c104_full (sizedCfg 10) (sizedCfg 20) ⟨sampleCfg_wf.1, sampleCfg_wf.2, sampleCfg_wf.3, sampleCfg_wf.4⟩ rfl rfl (by decide) (by decide)
      s o ⟨s, [], h3, rfl⟩ ⟨o, [], h1, rfl⟩ n t hx


/-- Non-vacuity for `c104_producer`: a consumer that asked a producer with `ibfCount` 4 sends a sync Interest with its IBF; a producer with
`ibfCount` 10 receives it. -/
example : ∃ (o : Cons) (s s' : Part) (n : Name) (t : Nat) (c : Component), Cons.Reach sampleCCfg o ∧ Part.Reach (sizedCfg 10) s ∧
    Out.interest n t ∈ o.log ∧ n.getLast? = some c ∧ IbfOf sampleCfg c ∧ n ≠ sampleCCfg.syncPrefix ++ [HELLO] ∧
    sampleCCfg.syncPrefix = (sizedCfg 10).syncPrefix ∧ ¬ SameSize (sizedCfg 10) sampleCfg ∧
    Part.step (sizedCfg 10) s (.recvInterest ⟨n, 1000, 5⟩) = .ok s' := by
  have h : (consRun subscribed).get?.map (fun o => match o.log.getLast? with
      | some (.interest n _) => (n.getLast?, decide (n ≠ sampleCCfg.syncPrefix ++ [HELLO]),
        (Part.step (sizedCfg 10) (Part.init (sizedCfg 10)) (.recvInterest ⟨n, 1000, 5⟩)).get?.isSome)
      | _ => (none, false, false)) = some (some ⟨8, List.replicate 72 0⟩, true, true) := by decide +kernel
  obtain ⟨o, h1, h2⟩ := Res.of_get? h
  split at h2
  · rename_i n t hl
    simp only [Prod.mk.injEq, decide_eq_true_eq] at h2
    obtain ⟨h3, h4, h5⟩ := h2
    cases hs : Part.step (sizedCfg 10) (Part.init (sizedCfg 10)) (.recvInterest ⟨n, 1000, 5⟩) with
    | ok s' =>
      exact ⟨o, Part.init (sizedCfg 10), s', n, t, _, consRun_reach h1, ⟨[], rfl⟩, List.mem_of_getLast? hl, h3,
        ⟨Part.init sampleCfg, ⟨[], rfl⟩, by decide +kernel⟩, h4, rfl, by decide, hs⟩
    | throw e => rw [hs] at h5; cases h5
    | ub e => rw [hs] at h5; cases h5
    | hang => rw [hs] at h5; cases h5
  · simp at h2

end PSync
