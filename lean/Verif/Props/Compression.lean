import Verif.Spec.Compression
import Verif.Proofs.MicroLog
import Verif.Proofs.PartMicro
import Verif.Proofs.PartReply
import Verif.Proofs.PacketSize
import Verif.Proofs.Honest
import Verif.Props.Sample
/-!
C94: compression schemes that the library was built with and without.
-/
namespace PSync
open Spec

theorem codec_missing {b : Build} {s : Scheme} (h : ¬ Available b s) : b.codec s = Codec.unsupported := by
  unfold Available at h
  simp only [not_or, not_and, not_not] at h
  obtain ⟨h0, h1, h2, h3, h4, h5⟩ := h
  unfold Build.codec Codec.unsupported Build.compress Build.decompress
  cases s with
  | none => exact absurd rfl h0
  | zlib => simp only [h1 rfl]
  | gzip => simp only [h2 rfl]
  | bzip2 => simp only [h3 rfl]
  | lzma => simp only [h4 rfl]
  | zstd => simp only [h5 rfl]

theorem codec_sound {b : Build} (hb : SoundBuild b) {s : Scheme} (h : Available b s) : (b.codec s).Lossless := by
  intro x
  unfold Available at h
  simp only [Build.codec, Build.compress, Build.decompress]
  rcases h with rfl | ⟨rfl, h⟩ | ⟨rfl, h⟩ | ⟨rfl, h⟩ | ⟨rfl, h⟩ | ⟨rfl, h⟩
  · exact ⟨x, rfl, rfl⟩
  · obtain ⟨f, hf⟩ := Option.ne_none_iff_exists'.mp h
    rw [hf]; exact hb.zlib f hf x
  · obtain ⟨f, hf⟩ := Option.ne_none_iff_exists'.mp h
    rw [hf]; exact hb.gzip f hf x
  · obtain ⟨f, hf⟩ := Option.ne_none_iff_exists'.mp h
    rw [hf]; exact hb.bzip2 f hf x
  · obtain ⟨f, hf⟩ := Option.ne_none_iff_exists'.mp h
    rw [hf]; exact hb.lzma f hf x
  · obtain ⟨f, hf⟩ := Option.ne_none_iff_exists'.mp h
    rw [hf]; exact hb.zstd f hf x

/-- C94: with a scheme that the library was built with, every buffer can be compressed and is what decompression gives back; without it, both
throw on every buffer. -/
theorem c94_dispatch (b : Build) (hb : SoundBuild b) (s : Scheme) (x : Bytes) :
    (Available b s → ∃ y, b.compress s x = some y ∧ b.decompress s y = some x) ∧
    (¬ Available b s → b.compress s x = none ∧ b.decompress s x = none) := by
  refine ⟨fun h => codec_sound hb h x, fun h => ?_⟩
  have h1 := congrArg (fun c => c.compress x) (codec_missing h)
  have h2 := congrArg (fun c => c.decompress x) (codec_missing h)
  exact ⟨h1, h2⟩

/-- C94: the default scheme is always available, and it compresses exactly if the library was built with zlib. -/
theorem c94_default (b : Build) : Available b b.defaultScheme ∧ (b.defaultScheme ≠ .none ↔ b.zlib ≠ none) := by
  unfold Build.defaultScheme Available
  cases h : b.zlib <;> simp

/-- C94: with available schemes the codecs are lossless, so that with random delays of 100 to 500 ms all the statements on well-formed
configurations hold. -/
theorem c94_wf (b : Build) (hb : SoundBuild b) (env : Cfg) (syncPrefix : Name) (o : FullOptions)
    (h1 : Available b o.ibfCompression) (h2 : Available b o.contentCompression)
    (hj : ∀ n, 100 ≤ env.jitter n ∧ env.jitter n ≤ 500) : (o.cfg b env syncPrefix).WF :=
  ⟨fun n => (hj n).1, fun n => (hj n).2, codec_sound hb h1, codec_sound hb h2⟩

theorem init_waits {cfg : Cfg} : Full.init cfg = Res.bind ((Table.new cfg.expected).toComponent cfg.ibltCodec) fun _ =>
    Full.sendSyncInterest cfg (Full.fresh cfg) := by
  unfold Full.init Full.sendSyncInterest Full.syncName
  simp only [Full.fresh, Full.stopFetcher, Bool.false_eq_true, if_false, Option.map_none, Base.new]
  cases (Table.new cfg.expected).toComponent cfg.ibltCodec <;> rfl

/-- C94: a FullProducer is refused exactly if the scheme for the IBF is missing; the exception is a compression error.
Otherwise it sends an Interest with the compressed empty IBF. -/
theorem c94_construct_partial (b : Build) (hb : SoundBuild b) (env : Cfg) (syncPrefix : Name) (o : FullOptions) :
    (Available b o.ibfCompression → ∃ s y, Full.construct b env syncPrefix o = .ok s ∧
      b.compress o.ibfCompression (Table.new o.ibfCount).encode = some y ∧
      s.log = [.interest (syncPrefix ++ [⟨8, y⟩, ⟨8, nniBytes 0⟩]) o.syncInterestLifetime]) ∧
    (¬ Available b o.ibfCompression → Full.construct b env syncPrefix o = .throw .compression) := by
  constructor
  · intro h
    obtain ⟨y, hy, _⟩ := codec_sound hb h (Table.new o.ibfCount).encode
    have hc : (Table.new o.ibfCount).toComponent (b.codec o.ibfCompression) = .ok ⟨TlvType.generic, y⟩ := by
      unfold Table.toComponent
      rw [hy]; rfl
    suffices hx : ∃ s, Full.construct b env syncPrefix o = .ok s ∧
        s.log = [.interest (Name.appendNumber (syncPrefix ++ [⟨TlvType.generic, y⟩]) 0) o.syncInterestLifetime] by
      obtain ⟨s, h1, h2⟩ := hx
      refine ⟨s, y, h1, hy, ?_⟩
      rw [h2, Name.appendNumber, List.append_assoc]
      rfl
    unfold Full.construct Full.init Full.sendSyncInterest Full.syncName
    simp only [Full.fresh, Full.stopFetcher, Bool.false_eq_true, if_false, Option.map_none, Base.new, FullOptions.cfg, hc, Res.ok_bind,
      Full.recentlySent, Bool.false_and]
    exact ⟨_, rfl, rfl⟩
  · intro h
    have hc : (Table.new o.ibfCount).toComponent (b.codec o.ibfCompression) = .throw .compression := by
      rw [codec_missing h]; rfl
    unfold Full.construct
    rw [init_waits]
    simp only [FullOptions.cfg, hc]
    rfl

/-- The run of a FullProducer, with every reported update found in some buffer that could be decoded. -/
theorem reach_micro_decoded {cfg : Cfg} {s : Full} (h : Full.Reach cfg s) :
    Micros (Full.rules cfg Full.knownP (fun _ => True) (fun _ _ => True) (fun us => ∃ buf, Full.MergeOk cfg buf us))
      ⟨Base.new cfg, SegPub.empty, [], [], [], 0⟩ s.view := by
  obtain ⟨s0, ops, h1, h2⟩ := h
  have hi : s0.base.Inv := by rw [Full.init_base h1]; exact Base.inv_new cfg
  have m0 := Full.sendSyncInterest_micro (ρ := Full.rules cfg Full.knownP (fun _ => True) (fun _ _ => True) (fun us => ∃ buf, Full.MergeOk cfg buf us))
    (fun b n hn => ⟨hn, rfl⟩) h1
  have := foldRes_rel (Q := fun a b : Full => a.base.Inv → b.base.Inv ∧
      Micros (Full.rules cfg Full.knownP (fun _ => True) (fun _ _ => True) (fun us => ∃ buf, Full.MergeOk cfg buf us)) a.view b.view)
    (fun _ hi => ⟨hi, Micros.refl⟩)
    (fun _ _ _ h1 h2 hi => ⟨(h2 (h1 hi).1).1, (h1 hi).2.trans (h2 (h1 hi).1).2⟩) ops
    (fun a o b _ hx hi => ⟨(Full.step_steps hx).inv hi, (Full.step_micro hi hx).mono
      (Full.rules_le (fun _ _ _ h => h) (fun _ _ => trivial) (fun _ _ _ => trivial) (fun _ ⟨buf, _, _, h⟩ => ⟨buf, h⟩))⟩) h2
  exact Micros.trans m0 (this hi).2

/-- C94: a FullProducer whose scheme for the content is missing never sends anything but Interests and nacks and never reports an update,
whatever it publishes and whatever it receives. -/
theorem c94_content (b : Build) (env : Cfg) (syncPrefix : Name) (o : FullOptions) (hm : ¬ Available b o.contentCompression)
    (s : Full) (h : Full.Reach (o.cfg b env syncPrefix) s) : OnlyAsksAndNacks s.log ∧ s.pub.store = [] := by
  have hc : (o.cfg b env syncPrefix).contentCodec = Codec.unsupported := codec_missing hm
  have noData : ∀ {b0 b1 : Base} {d : Data}, ¬ Sent (Full.rules (o.cfg b env syncPrefix) Full.knownP (fun _ => True) (fun _ _ => True)
      (fun us => ∃ buf, Full.MergeOk (o.cfg b env syncPrefix) buf us)) b0 b1 d := by
    rintro b0 b1 d ⟨_, _, _, _, _, _, _, ⟨content, _, _, hx⟩, _⟩
    rw [hc] at hx
    cases hx
  have ht := (reach_micro_decoded h).traced
  constructor
  · intro x hx
    obtain ⟨ext, h3, h4⟩ := ht.log
    simp only [Full.view, List.nil_append] at h3
    rw [h3] at hx
    rcases h4 x hx with ⟨d, hd, _⟩ | hx
    · simp [SegPub.empty] at hd
    · cases x with
      | interest n t => exact Or.inl ⟨n, t, rfl⟩
      | data d =>
        rcases hx with hx | ⟨b', _, hx⟩
        · exact absurd hx noData
        · refine Or.inr ⟨d, rfl, ?_⟩
          have hx : nackData (o.cfg b env syncPrefix) b' (o.cfg b env syncPrefix).syncPrefix = .ok d := hx
          unfold nackData at hx
          simp only [Res.bind_eq_ok, Res.ok.injEq] at hx
          obtain ⟨c, _, rfl⟩ := hx
          rfl
      | update us =>
        obtain ⟨⟨buf, ns, hx, _⟩, _⟩ := hx
        unfold Full.decodeReply at hx
        rw [hc] at hx
        cases hx
      | hello m => exact absurd hx id
  · cases hs : s.pub.store with
    | nil => rfl
    | cons d l =>
      have := ht.store d (by simp only [Full.view, hs]; exact List.mem_cons_self ..)
      rcases this with hd | hd
      · simp [SegPub.empty] at hd
      · exact absurd hd noData

/-- C94: a PartialProducer whose scheme for the IBF is missing is constructed, but never sends anything and never parks an Interest, whatever it
publishes and receives; and every hello Interest makes it throw. -/
theorem c94_part (b : Build) (env : Cfg) (syncPrefix : Name) (o : PartOptions) (hm : ¬ Available b o.ibfCompression)
    (s : Part) (h : Part.Reach (o.cfg b env syncPrefix) s) :
    s.log = [] ∧ s.pending = [] ∧ s.pub.store = [] ∧
    ∀ lifetime nonce, Part.step (o.cfg b env syncPrefix) s (.recvInterest ⟨syncPrefix ++ [HELLO], lifetime, nonce⟩) = .throw .compression := by
  have hc : (o.cfg b env syncPrefix).ibltCodec = Codec.unsupported := codec_missing hm
  have noIbf : ∀ (t : Table) (c : Component), t.toComponent (o.cfg b env syncPrefix).ibltCodec ≠ .ok c := by
    intro t c ht
    rw [hc] at ht
    cases ht
  have noNack : ∀ (b' : Base) (n : Name) (d : Data), nackData (o.cfg b env syncPrefix) b' n ≠ .ok d := by
    intro b' n d hd
    unfold nackData at hd
    simp only [Res.bind_eq_ok] at hd
    obtain ⟨c, hx, _⟩ := hd
    exact noIbf _ _ hx
  have noData : ∀ {b0 b1 : Base} {d : Data},
      ¬ Sent (Part.rules (o.cfg b env syncPrefix) (Part.anyData (o.cfg b env syncPrefix)) (fun _ => True) (fun _ _ => True)) b0 b1 d := by
    rintro b0 b1 d ⟨_, _, _, _, _, _, _, hd, _⟩
    cases hd with
    | hello c hx => exact noIbf _ _ hx
    | asked n key bf t df ct c _ _ _ _ _ _ hx => exact noIbf _ _ hx
    | parked p x key bf t df sub c _ _ _ _ _ _ hx => exact noIbf _ _ hx
  have ht := (Part.reach_micro h).traced
  have hstore : s.pub.store = [] := by
    cases hs : s.pub.store with
    | nil => rfl
    | cons d l =>
      have := ht.store d (by simp only [Part.view, hs]; exact List.mem_cons_self ..)
      rcases this with hd | hd
      · simp [SegPub.empty] at hd
      · exact absurd hd noData
  refine ⟨?_, ?_, hstore, ?_⟩
  · cases hl : s.log with
    | nil => rfl
    | cons x l =>
      have hx := Part.reach_log h (o := x) (by rw [hl]; exact List.mem_cons_self ..)
      cases x with
      | interest n t => obtain ⟨_, _, hx⟩ := hx; exact absurd hx id
      | data d =>
        rcases hx with hx | ⟨b', _, _, _, _, _, hx⟩
        · exact absurd hx noData
        · exact absurd hx (noNack _ _ _)
      | update us => exact absurd hx.1 id
      | hello m => exact absurd hx id
  · cases hp : s.pending with
    | nil => rfl
    | cons e l =>
      have hpk := Part.reach_parked h
      have hx := hpk.fields e.1 e.2 (NMap.find_of_mem hpk.sorted (by rw [hp]; exact List.mem_cons_self ..))
      obtain ⟨_, _, _, _, _, _, _, _, _, _, hx⟩ := hx
      unfold Table.initialize at hx
      rw [hc] at hx
      cases hx
  · intro lifetime nonce
    have hpre : ((o.cfg b env syncPrefix).syncPrefix ++ [HELLO]).isPrefixOf (syncPrefix ++ [HELLO]) = true := by
      rw [List.isPrefixOf_iff_prefix]; exact List.prefix_rfl
    simp only [Part.step, hpre, if_true]
    unfold Part.onHelloInterest
    have hst : s.pub.replyFromStore (syncPrefix ++ [HELLO]) = none := by
      cases hf : s.pub.replyFromStore (syncPrefix ++ [HELLO]) with
      | none => rfl
      | some d => have := (storeFind_some hf).1; rw [hstore] at this; simp at this
    have hlast : (syncPrefix ++ [HELLO]).getFromEnd 1 = .ok HELLO := by
      rw [getFromEnd_one (by simp)]
      simp
    simp only [hst, hlast, Res.ok_bind, if_true, ne_eq, not_true, if_false]
    have : Table.toComponent (o.cfg b env syncPrefix).ibltCodec s.base.iblt = .throw .compression := by
      rw [hc]; rfl
    rw [this]
    rfl

/-- A build without any algorithm. -/
def bareBuild : Build := ⟨none, none, none, none, none⟩
/-- Something in the place of zlib that gives back what was put in. -/
def zlibLike : Codec := ⟨fun x => some (120#8 :: x), fun x => match x with | 120#8 :: y => some y | _ => none⟩
/-- A build with it. -/
def zlibBuild : Build := ⟨some zlibLike, none, none, none, none⟩

theorem bareBuild_sound : SoundBuild bareBuild :=
  ⟨fun _ h => (by cases h), fun _ h => (by cases h), fun _ h => (by cases h), fun _ h => (by cases h), fun _ h => (by cases h)⟩

theorem zlibBuild_sound : SoundBuild zlibBuild :=
  ⟨fun f h => (by cases h; exact fun x => ⟨_, rfl, rfl⟩), fun _ h => (by cases h), fun _ h => (by cases h), fun _ h => (by cases h),
    fun _ h => (by cases h)⟩

/-- C94 is false: a FullProducer whose scheme for the content is missing is constructed. -/
theorem c94_false : ¬ MissingRefused := by
  intro h
  have hx := h bareBuild bareBuild_sound sampleCfg (nameOf [115]) ⟨80, .none, 1000, 1000, .zlib⟩ (by
    rintro ⟨_, h⟩
    simp [Available, bareBuild] at h)
  obtain ⟨s, _, h1, _⟩ := (c94_construct_partial bareBuild bareBuild_sound sampleCfg (nameOf [115]) ⟨80, .none, 1000, 1000, .zlib⟩).1
    (Or.inl rfl)
  exact hx s h1

/-- C94: the default options do not make two nodes compatible, if one was built with zlib and the other without. -/
theorem c94_default_false : ¬ DefaultsMeet := by
  intro h
  obtain ⟨s, y, h1, hy, h2⟩ := (c94_construct_partial zlibBuild zlibBuild_sound sampleCfg (nameOf [115]) (FullOptions.default zlibBuild)).1
    (c94_default zlibBuild).1
  obtain ⟨c, k, tbl, h3, h4⟩ := h zlibBuild bareBuild zlibBuild_sound bareBuild_sound sampleCfg (nameOf [115]) s h1 _ _
    (by rw [h2]; exact List.mem_cons_self ..)
  have hc : c = ⟨8, y⟩ := by
    have := List.append_cancel_left h3
    simp only [List.cons.injEq] at this
    exact this.1.symm
  have hlen := initialize_none h4
  rw [hc] at hlen
  cases hy
  simp only [List.length_cons, table_encode_length, FullOptions.default, Table.new, List.length_replicate] at hlen
  omega

/-- C94: but if both were built with the same zlib, or both without, nodes with the default options understand each other. -/
theorem c94_default_partial (b1 b2 : Build) (h1 : SoundBuild b1) (hz : b1.zlib = b2.zlib) (env : Cfg) (syncPrefix : Name) (s : Full)
    (hs : Full.Reach ((FullOptions.default b1).cfg b1 env syncPrefix) s) (n : Name) (t : Nat) (hn : Out.interest n t ∈ s.log) :
    ∃ c k tbl, n = syncPrefix ++ [c, k] ∧ Table.initialize (b2.codec (FullOptions.default b2).ibfCompression) 80 c = .ok tbl := by
  obtain ⟨bs, ⟨hb, _⟩, hnm, _⟩ := Full.reach_log hs hn
  have hr := hb.ranged (e := 80) (by decide) (Base.ranged_new ((FullOptions.default b1).cfg b1 env syncPrefix))
  have hl := codec_sound h1 (c94_default b1).1
  obtain ⟨c, g1, g2⟩ := c02_round_trip _ hl 80 bs.iblt (by rw [nCells_eq]; exact hr.1) hr.2
  have hcod : b2.codec (FullOptions.default b2).ibfCompression = b1.codec b1.defaultScheme := by
    have hz' : b1.zlib = b2.zlib := hz
    cases hf : b2.zlib with
    | none =>
      rw [hf] at hz'
      simp only [FullOptions.default, Build.defaultScheme, hf, hz', Option.isSome_none, Bool.false_eq_true, if_false]
      rfl
    | some f =>
      rw [hf] at hz'
      simp only [FullOptions.default, Build.defaultScheme, hf, hz', Option.isSome_some, if_true, Build.codec, Codec.mk.injEq]
      exact ⟨funext fun x => by simp only [Build.compress, hf, hz'], funext fun x => by simp only [Build.decompress, hf, hz']⟩
  refine ⟨c, ⟨8, nniBytes bs.numOwn⟩, bs.iblt, ?_, by rw [hcod]; exact g2⟩
  have hnm : Full.syncName ((FullOptions.default b1).cfg b1 env syncPrefix) bs = .ok n := hnm
  unfold Full.syncName at hnm
  have g1' : bs.iblt.toComponent ((FullOptions.default b1).cfg b1 env syncPrefix).ibltCodec = .ok c := g1
  rw [g1', Res.ok_bind, Res.ok.injEq, Name.appendNumber, List.append_assoc] at hnm
  exact hnm.symm

set_option synthInstance.maxSize 1024 in
/-- Non-vacuity: with zlib missing for the content, a node that has parked the Interest of another throws when it publishes. -/
example : (match Full.construct bareBuild sampleCfg (nameOf [115]) ⟨4, .none, 1000, 1000, .zlib⟩ with
    | .ok s => match Full.syncName sampleCfg s.base with
      | .ok n => Full.run ((FullOptions.mk 4 .none 1000 1000 .zlib).cfg bareBuild sampleCfg (nameOf [115])) s
          [.recvInterest ⟨n, 1000, 1⟩, .call (.addUserNode pA), .call (.publishName pA none)]
      | _ => .hang
    | _ => .hang) = .throw .compression := by decide +kernel

set_option synthInstance.maxSize 1024 in
/-- And with zlib for both, such a node answers. -/
example : (match Full.construct zlibBuild sampleCfg (nameOf [115]) ⟨4, .zlib, 1000, 1000, .zlib⟩ with
    | .ok s => match Full.syncName ((FullOptions.mk 4 .zlib 1000 1000 .zlib).cfg zlibBuild sampleCfg (nameOf [115])) s.base with
      | .ok n => match Full.run ((FullOptions.mk 4 .zlib 1000 1000 .zlib).cfg zlibBuild sampleCfg (nameOf [115])) s
          [.recvInterest ⟨n, 1000, 1⟩, .call (.addUserNode pA), .call (.publishName pA none)] with
        | .ok s => (dataOf s.log).map (fun d => (d.contentType, d.content.take 1))
        | _ => []
      | _ => []
    | _ => []) = [(.blob, [120#8])] := by decide +kernel

/-- Non-vacuity: a PartialProducer without zlib. -/
example : Part.step ((PartOptions.mk 4 .zlib 1000 1000).cfg bareBuild sampleCfg (nameOf [115]))
    (Part.init ((PartOptions.mk 4 .zlib 1000 1000).cfg bareBuild sampleCfg (nameOf [115])))
    (.recvInterest ⟨nameOf [115] ++ [HELLO], 1000, 1⟩) = .throw .compression := by decide +kernel

end PSync
