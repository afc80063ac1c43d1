import Verif.Proofs.PacketSize
import Verif.Props.Sample
/-!
C90: what a producer sends fits into an NDN packet.
-/
namespace PSync
open Spec

theorem readNni_length {bs : Bytes} {x : Nat} (h : readNni bs = some x) : bs.length ≤ 8 := by
  unfold readNni at h
  split at h
  · omega
  · cases h

theorem steps_ibf {cfg : Cfg} (he : 0 < cfg.expected) (hc : cfg.ibltCodec = Codec.none) {b : Base}
    (hb : Base.Steps (fun _ => True) (Base.new cfg) b) {c : Component} (h : b.iblt.toComponent cfg.ibltCodec = .ok c) :
    c.type = 8 ∧ c.value.length = 12 * nCells cfg.expected := by
  rw [hc] at h
  obtain ⟨h1, h2⟩ := toComponent_none h
  refine ⟨h1, ?_⟩
  rw [h2, nCells_eq]
  have := (hb.ranged he (Base.ranged_new cfg)).1
  omega

theorem steps_length {cfg : Cfg} (he : 0 < cfg.expected) {b : Base} (hb : Base.Steps (fun _ => True) (Base.new cfg) b) :
    b.iblt.length = nCells cfg.expected := by
  rw [nCells_eq]
  exact (hb.ranged he (Base.ranged_new cfg)).1

/-- C90, FullProducer: with the IBF not compressed and prefix, IBF and signature of together at most 4311 bytes, every Data
and every Interest that it sends is at most 8800 bytes long, whatever it receives, however many prefixes there are and however
much is published. -/
theorem c90_full (cfg : Cfg) (sig : Bytes) (he : 0 < cfg.expected) (hs : SmallOptions cfg sig) (s0 : Full) (ops : List Full.Op)
    (s : Full) (h0 : Full.init cfg = .ok s0) (h : Full.run cfg s0 ops = .ok s) :
    (∀ d ∈ dataOf s.log, (dataWire sig d).length ≤ packetLimit) ∧
    ∀ n t nonce, Out.interest n t ∈ s.log → (interestWire n nonce t).length ≤ packetLimit := by
  obtain ⟨hc, hsz⟩ := hs
  have hL : Full.Laws cfg (fun n => n.wireValue.length ≤ cfg.syncPrefix.wireValue.length + 12 * nCells cfg.expected + 30)
      (fun d => (dataWire sig d).length ≤ packetLimit) (fun n t => ∀ nonce, (interestWire n nonce t).length ≤ packetLimit) := by
    refine ⟨?_, ?_, ?_⟩
    · intro n hn v buf fr d hd
      obtain ⟨g1, ⟨k, g2⟩, g3, g4⟩ := segment_size hd
      have := dataWire_le (sig := sig) g1 g2 (by omega)
      simp only [packetLimit]
      omega
    · intro b d hb hd
      obtain ⟨c, g1, g2, g3, g4, g5⟩ := nackData_size hc hd
      have hl := steps_length he hb
      have hn : d.name.wireValue.length ≤ cfg.syncPrefix.wireValue.length + 12 * nCells cfg.expected + 30 := by
        rw [g3, wireValue_append, wireValue_two, List.length_append, List.length_append]
        have e1 := tlv_le (t := c) (by rw [g1]; decide) (by omega)
        have e2 := tlv_nni (ty := 50) (by decide) 0
        omega
      have := dataWire_le (sig := sig) (by rw [g4]; simp) g5 (by omega)
      simp only [packetLimit]
      omega
    · intro b n hb hn nonce
      unfold Full.syncName at hn
      simp only [Res.bind_eq_ok, Res.ok.injEq] at hn
      obtain ⟨c, h1, rfl⟩ := hn
      obtain ⟨g1, g2⟩ := steps_ibf he hc hb h1
      have hn : (Name.appendNumber (cfg.syncPrefix ++ [c]) b.numOwn).wireValue.length ≤
          cfg.syncPrefix.wireValue.length + 12 * nCells cfg.expected + 14 := by
        unfold Name.appendNumber
        rw [wireValue_append, wireValue_append, wireValue_one, wireValue_one, List.length_append, List.length_append]
        have e1 := tlv_le (t := c) (by rw [g1]; decide) (by omega)
        have e2 := tlv_nni (ty := TlvType.generic) (by decide) b.numOwn
        omega
      have := interestWire_le (nonce := nonce) (t := cfg.lifetime) (n := Name.appendNumber (cfg.syncPrefix ++ [c]) b.numOwn) (by omega)
      simp only [packetLimit]
      omega
  have hp : ∀ i, Full.Op.recvInterest i ∈ ops → cfg.syncPrefix.isPrefixOf i.name = true → Full.Parses cfg i.name →
      i.name.wireValue.length ≤ cfg.syncPrefix.wireValue.length + 12 * nCells cfg.expected + 30 := by
    rintro i _ hi ⟨c2, c1, num, t, p1, p2, p3, p4, p5⟩
    obtain ⟨r, hr⟩ := List.isPrefixOf_iff_prefix.mp hi
    rw [← hr] at p1 p2 p3 ⊢
    rw [List.drop_left] at p1
    match r, p1 with
    | [a, b], _ =>
      rw [getFromEnd_two] at p2
      rw [getFromEnd_last] at p3
      cases p2
      cases p3
      rw [hc] at p5
      have e1 := initialize_none p5
      have e2 := readNni_length (toNumber_ok.mp p4)
      rw [wireValue_append, wireValue_two, List.length_append, List.length_append]
      have e3 := tlv_any (t := c2) (by omega)
      have e4 := tlv_any_short (t := c1) (by omega)
      omega
  have hr := Full.run_put hL ops (Full.init_lists h0).1 (Full.sendSyncInterest_put hL (Full.fresh_put _ _ _) h0) hp h
  exact ⟨fun d hd => hr.log d (dataOf_mem_iff.mp hd), fun n t nonce hn => hr.ask n t hn nonce⟩

/-- The size of the own Interests of a FullProducer is given by its options alone, up to 14 bytes: it does not grow with the number
of prefixes or of publications. -/
theorem c90_full_interest (cfg : Cfg) (he : 0 < cfg.expected) (hc : cfg.ibltCodec = Codec.none) (hn : nCells cfg.expected ≤ 5461)
    (s0 : Full) (ops : List Full.Op) (s : Full) (h0 : Full.init cfg = .ok s0) (h : Full.run cfg s0 ops = .ok s) (n : Name) (t : Nat)
    (hm : Out.interest n t ∈ s.log) :
    cfg.syncPrefix.wireValue.length + 12 * nCells cfg.expected ≤ n.wireValue.length ∧
    n.wireValue.length ≤ cfg.syncPrefix.wireValue.length + 12 * nCells cfg.expected + 14 := by
  have hL : Full.Laws cfg (fun _ => True) (fun _ => True) (fun n _ =>
      cfg.syncPrefix.wireValue.length + 12 * nCells cfg.expected ≤ n.wireValue.length ∧
      n.wireValue.length ≤ cfg.syncPrefix.wireValue.length + 12 * nCells cfg.expected + 14) := by
    refine ⟨fun _ _ _ _ _ _ _ => trivial, fun _ _ _ _ => trivial, ?_⟩
    intro b n hb hn
    unfold Full.syncName at hn
    simp only [Res.bind_eq_ok, Res.ok.injEq] at hn
    obtain ⟨c, h1, rfl⟩ := hn
    obtain ⟨g1, g2⟩ := steps_ibf he hc hb h1
    unfold Name.appendNumber
    rw [wireValue_append, wireValue_append, wireValue_one, wireValue_one, List.length_append, List.length_append]
    have e1 := tlv_le (t := c) (by rw [g1]; decide) (by omega)
    have e2 := tlv_nni (ty := TlvType.generic) (by decide) b.numOwn
    have e3 := tlv_ge c
    omega
  exact (Full.run_put hL ops (Full.init_lists h0).1 (Full.sendSyncInterest_put hL (Full.fresh_put _ _ _) h0)
    (fun _ _ _ _ => trivial) h).ask n t hm

/-- A key that an Interest name asks for is not longer than the name. -/
theorem asksFor_length {n key : Name} (h : AsksFor n key) : key.wireValue.length ≤ n.wireValue.length := by
  rcases h with rfl | ⟨v, g, rfl⟩
  · exact Nat.le_refl _
  · rw [wireValue_append, List.length_append]
    omega

/-- C90 (the part that holds for a PartialProducer): if in addition the names of the sync Interests it receives have at most
`L` bytes, and `L`, the IBF and the signature together at most 4337, then every Data it sends is at most 8800 bytes long. -/
theorem c90_producer_partial (cfg : Cfg) (sig : Bytes) (he : 0 < cfg.expected) (hs : SmallOptions cfg sig) (L : Nat)
    (hl : L + 12 * nCells cfg.expected + sig.length ≤ 4337) (ops : List Part.Op) (s : Part)
    (hi : ∀ i, Part.Op.recvInterest i ∈ ops → (cfg.syncPrefix ++ [SYNC]) <+: i.name → i.name.wireValue.length ≤ L)
    (h : Part.run cfg (Part.init cfg) ops = .ok s) : ∀ d ∈ dataOf s.log, (dataWire sig d).length ≤ packetLimit := by
  obtain ⟨hc, hsz⟩ := hs
  have hL : Part.Laws cfg (fun n => n.wireValue.length ≤ L) (fun d => (dataWire sig d).length ≤ packetLimit) := by
    refine ⟨?_, ?_, ?_⟩
    · rintro n c hn ⟨b, hb, hcc⟩ v buf fr d hd
      obtain ⟨e1, e2⟩ := steps_ibf he hc hb hcc
      obtain ⟨g1, ⟨k, g2⟩, g3, g4⟩ := segment_size hd
      rw [wireValue_append, wireValue_one, List.length_append] at g3
      have e3 := tlv_le (t := c) (by rw [e1]; decide) (by omega)
      have := dataWire_le (sig := sig) g1 g2 (by omega)
      simp only [packetLimit]
      omega
    · rintro c ⟨b, hb, hcc⟩ v buf fr d hd
      obtain ⟨e1, e2⟩ := steps_ibf he hc hb hcc
      obtain ⟨g1, ⟨k, g2⟩, g3, g4⟩ := segment_size hd
      rw [wireValue_append, wireValue_two, List.length_append, List.length_append] at g3
      have e3 := tlv_le (t := c) (by rw [e1]; decide) (by omega)
      have e4 : (Tlv.encode HELLO).length = 7 := by decide
      have := dataWire_le (sig := sig) g1 g2 (by omega)
      simp only [packetLimit]
      omega
    · intro n b d hn hb hd
      obtain ⟨c, g1, g2, g3, g4, g5⟩ := nackData_size hc hd
      have hl := steps_length he hb
      have hn : d.name.wireValue.length ≤ L + 12 * nCells cfg.expected + 14 := by
        rw [g3, wireValue_append, wireValue_two, List.length_append, List.length_append]
        have e1 := tlv_le (t := c) (by rw [g1]; decide) (by omega)
        have e2 := tlv_nni (ty := 50) (by decide) 0
        omega
      have := dataWire_le (sig := sig) (by rw [g4]; simp) g5 (by omega)
      simp only [packetLimit]
      omega
  have hr := Part.run_put hL ops (s := Part.init cfg) ⟨NMap.sorted_nil, fun n e h => by cases h⟩ (Part.init_put _ _) ?_ h
  · exact fun d hd => hr.log d (dataOf_mem_iff.mp hd)
  · rintro i hi' key bf t ⟨c1, c2, c3, c4, _, _, rfl, _⟩ ha
    refine Nat.le_trans (asksFor_length ha) (hi i hi' ?_)
    rcases ha with e | ⟨v, g, e⟩
    · exact ⟨[c1, c2, c3, c4], by rw [e]; simp⟩
    · exact ⟨[c1, c2, c3, c4, v, g], by rw [e]; simp⟩

/-- How the sync Interest comes back in the Data: unless it is answered from the store, every Data that a PartialProducer sends for
a sync Interest is longer than the fields of the Interest and another IBF together.  So, if these are longer than a packet, nothing
that is sent in answer fits. -/
theorem c90_oversized (cfg : Cfg) (sig : Bytes) (he : 0 < cfg.expected) (hc : cfg.ibltCodec = Codec.none) (ops : List Part.Op) (s s' : Part)
    (h : Part.run cfg (Part.init cfg) ops = .ok s) (i : Interest) (hp : (cfg.syncPrefix ++ [SYNC]) <+: i.name)
    (hst : s.pub.replyFromStore i.name = none) (h' : Part.onSyncInterest cfg s i = .ok s') (d : Data)
    (hd : d ∈ (dataOf s'.log).drop (dataOf s.log).length) :
    ∃ key bf t, SyncFields cfg key bf t ∧ AsksFor i.name key ∧
      key.wireValue.length + 12 * nCells cfg.expected + sig.length + d.content.length ≤ (dataWire sig d).length := by
  have hb : Base.Steps (fun _ => True) (Base.new cfg) s.base := by
    exact (Part.run_put ⟨fun _ _ _ _ _ _ _ _ _ => trivial, fun _ _ _ _ _ _ _ => trivial, fun _ _ _ _ _ _ => trivial⟩ ops
      (s := Part.init cfg) ⟨NMap.sorted_nil, fun n e h => by cases h⟩ (Part.init_put (fun _ => True) (fun _ => True)) (fun _ _ _ _ _ _ _ => trivial) h).base
  have hge := dataWire_ge sig d
  have ap : ∀ (l m : List Out), dataOf (l ++ m) = dataOf l ++ dataOf m := by
    intro l m
    induction l with
    | nil => rfl
    | cons o l ih => cases o <;> simp [dataOf, ih]
  rcases Part.onSyncInterest_cases' hp h' with ⟨_, hd', _⟩ | ⟨_, rfl | ⟨key, bf, iblt, hf, ha, h1⟩⟩
  · rw [hst] at hd'; cases hd'
  · simp at hd
  · refine ⟨key, bf, iblt, hf, ha, ?_⟩
    obtain ⟨diff, _, ⟨_, d', hn, rfl⟩ | ⟨_, content, _, ⟨_, c, r, hcc, hr, rfl⟩ | ⟨_, _, rfl⟩⟩⟩ := Part.onSyncParsed_ok h1
    · simp only [Part.emit, ap, List.drop_left, dataOf_mem_iff, List.mem_singleton, Out.data.injEq] at hd
      subst hd
      obtain ⟨c, g1, g2, g3, _⟩ := nackData_size hc hn
      rw [g3, wireValue_append, wireValue_two, List.length_append, List.length_append] at hge
      have e1 := tlv_ge c
      have e2 := steps_length he hb
      omega
    · simp only [ap, List.drop_left, dataOf_mem_iff] at hd
      obtain ⟨d', h6, h7⟩ := List.mem_map.mp hd
      cases h7
      obtain ⟨_, _, _, g4⟩ := segment_size (publish_data_mem hr h6)
      rw [wireValue_append, wireValue_one, List.length_append] at g4
      obtain ⟨_, e2⟩ := steps_ibf he hc hb hcc
      have e1 := tlv_ge c
      omega
    · simp at hd

/-- Capacity 230: 345 cells, so an IBF of 4140 bytes. -/
def wideCfg : Cfg := { sampleCfg with expected := 230 }

/-- A name of 300 bytes. -/
def longName : Name := nameOf (List.replicate 300 97#8)

/-- Asks for everything, knows nothing: a filter of ones and an empty IBF. -/
def askAll : Interest :=
  { name := wideCfg.syncPrefix ++ [SYNC, ⟨8, [3#8]⟩, ⟨8, [1#8]⟩, ⟨8, List.replicate 11 255#8⟩, ⟨8, List.replicate 4140 0#8⟩],
    nonce := 0, lifetime := 1000 }

def askOps : List Part.Op := [.addUserNode longName, .publishName longName none, .recvInterest askAll]

/-- The sizes of what is sent in the run `askOps` with a signature of 168 bytes. -/
theorem ask_run : ((Part.run wideCfg (Part.init wideCfg) askOps).get?.map fun s => (dataOf s.log).map fun d =>
    (dataWire (List.replicate 168 0#8) d).length) = some [8828] := by
  decide +kernel

theorem ask_size : (interestWire askAll.name 0 1000).length = 4194 := by
  decide +kernel

/-- C90 as stated is false: a PartialProducer whose prefix, IBF and signature have together 4311 bytes answers a sync Interest of
4194 bytes with a Data of 8828 bytes, because the Data repeats the Interest name, appends another IBF to it and may carry 4400 bytes
of content.  The face throws. -/
theorem c90_false : ¬ FitsPacket := by
  intro h
  have hr := ask_run
  cases hs : Part.run wideCfg (Part.init wideCfg) askOps with
  | ok s =>
    rw [hs] at hr
    simp only [Res.get?, Option.map_some, Option.some.injEq] at hr
    have h1 := (h wideCfg (List.replicate 168 0#8) ⟨sampleCfg_wf.1, sampleCfg_wf.2, sampleCfg_wf.3, sampleCfg_wf.4⟩ (by decide)
      ⟨rfl, by decide +kernel⟩).1 askOps s (by
        intro i hi
        simp only [askOps, List.mem_cons, reduceCtorEq, Part.Op.recvInterest.injEq, List.not_mem_nil, or_false, false_or] at hi
        subst hi
        rw [show (interestWire askAll.name askAll.nonce askAll.lifetime).length = 4194 from ask_size]
        decide) hs
    match hl : dataOf s.log with
    | [] => rw [hl] at hr; cases hr
    | d :: l =>
      rw [hl] at hr h1
      simp only [List.map_cons, List.cons.injEq] at hr
      have h2 := h1 d (List.mem_cons_self ..)
      rw [hr.1] at h2
      exact absurd h2 (by decide)
  | throw e => rw [hs] at hr; cases hr
  | ub e => rw [hs] at hr; cases hr
  | hang => rw [hs] at hr; cases hr

/-- Non-vacuity for C90: the options of `sampleCfg` are small, and a FullProducer with them sends Interests and Data. -/
example : SmallOptions sampleCfg (List.replicate 200 0#8) ∧ 0 < sampleCfg.expected ∧
    ((Full.init sampleCfg).bind fun s0 => Full.run sampleCfg s0 [.call (.addUserNode pA), .call (.publishName pA none),
      .recvInterest { name := sampleCfg.syncPrefix ++ [⟨8, List.replicate 72 0#8⟩, ⟨8, [0#8]⟩], nonce := 0, lifetime := 1000 }]).get?.map
      (fun s => ((dataOf s.log).map fun d => (dataWire (List.replicate 200 0#8) d).length, s.log.length)) = some ([315], 3) :=
  ⟨⟨rfl, by decide +kernel⟩, by decide, by decide +kernel⟩

/-- Non-vacuity for C90, PartialProducer: hello and sync Interests with names of at most 200 bytes. -/
example : 200 + 12 * nCells sampleCfg.expected + 200 ≤ 4337 ∧
    ((Part.run sampleCfg (Part.init sampleCfg) [.addUserNode pA, .publishName pA none,
      .recvInterest { name := sampleCfg.syncPrefix ++ [HELLO], nonce := 0, lifetime := 1000 },
      .recvInterest { name := sampleCfg.syncPrefix ++ [SYNC, ⟨8, [3#8]⟩, ⟨8, [1#8]⟩, ⟨8, List.replicate 11 255#8⟩,
        ⟨8, List.replicate 72 0#8⟩], nonce := 0, lifetime := 1000 }]).get?.map
      fun s => (dataOf s.log).map fun d => (dataWire (List.replicate 200 0#8) d).length) = some [319, 411] :=
  ⟨by decide, by decide +kernel⟩

end PSync
