import Verif.Props.WireExact
/-!
Property C111: a producer that reads a sync Interest finds the subscriptions in it.
-/
namespace PSync
open Spec

theorem genSalts_length (extra : Nat → U32) (n : Nat) : (genSalts extra n).length = n := by
  unfold genSalts
  have hfold : ∀ (l : List Nat) (s : List U32) (f : List U32 → Nat → List U32) (_ : ∀ s i, (f s i).length = s.length),
      (l.foldl f s).length = s.length := by
    intro l
    induction l with
    | nil => intros; rfl
    | cons i l ih => intro s f hf; rw [List.foldl_cons, ih _ _ hf, hf]
  split
  · unfold mixSalts
    rw [hfold _ _ _ (fun s i => by simp), List.length_take, show predefSalt.length = 128 from rfl]
    omega
  · rw [List.length_append, show predefSalt.length = 128 from rfl, List.length_map, List.length_range]
    omega

/-- A table of at least one byte has a whole number of bytes. -/
theorem optimalParams_size {fl : Libm} {count : Nat} {p : Double} {k m : Nat} (h : optimalParams fl count p = .ok (k, m))
    (hm : 0 < m / 8) : 8 * (m / 8) = m := by
  unfold optimalParams at h
  split at h
  · cases h
  · split at h
    · cases h
    · rename_i m _
      simp only [Res.ok.injEq, Prod.mk.injEq] at h
      obtain ⟨_, rfl⟩ := h
      unfold bloomTableSize at hm ⊢
      simp only at hm ⊢
      have h8 : (if m % 8 ≠ 0 then (m + (8 - m % 8)) % 4294967296 else m) % 8 = 0 := by
        split <;> omega
      generalize (if m % 8 ≠ 0 then (m + (8 - m % 8)) % 4294967296 else m) = x at hm h8 ⊢
      split
      · rename_i hx
        rw [if_pos hx] at hm
        omega
      · omega

/-- The full claim C111. -/
def Spec.ReadMeansFound : Prop :=
  ∀ (pcfg : Cfg) (ccfg : CCfg) (bf0 : Bloom) (c : Component) (s s' : Cons) (n : Name) (lt : Nat),
    ccfg.syncPrefix = pcfg.syncPrefix → ccfg.libm = pcfg.libm → ccfg.extraSalt = pcfg.extraSalt → ccfg.bfCount < 2 ^ 32 →
    freshFilter ccfg = .ok bf0 → SizedBf bf0 → Cons.Reach ccfg s → s.iblt = [c] → s.sendSyncInterest ccfg = .ok s' →
    s'.log = s.log ++ [.interest n lt] →
      ∀ bf t, SyncFields pcfg n bf t → ∀ q, s.isSubscribed q = true → bf.contains q = .ok true

/-- C111 if the filter the producer makes of the Interest has as many hash functions as the consumer's: it answers every
question as the consumer's own does, so every subscription is found in it. -/
theorem c111_found_partial (pcfg : Cfg) (ccfg : CCfg) (bf0 : Bloom) (c : Component) (s s' : Cons) (n : Name) (lt : Nat)
    (e1 : ccfg.syncPrefix = pcfg.syncPrefix) (e2 : ccfg.libm = pcfg.libm) (e3 : ccfg.extraSalt = pcfg.extraSalt)
    (hc : ccfg.bfCount < 2 ^ 32) (hb : freshFilter ccfg = .ok bf0) (hz : SizedBf bf0) (hs : Cons.Reach ccfg s)
    (th : Nat) (hth : ccfg.libm.toThousandths ccfg.bfFpp = some th) (hth2 : th < 2 ^ 64) (hi : s.iblt = [c])
    (h : s.sendSyncInterest ccfg = .ok s') (hl : s'.log = s.log ++ [.interest n lt])
    (bf : Bloom) (t : Table) (hf : SyncFields pcfg n bf t) (hk : bf.salts.length = bf0.salts.length) :
    (∀ q, bf.contains q = s.bloom.contains q) ∧ ∀ q, s.isSubscribed q = true → bf.contains q = .ok true := by
  obtain ⟨c1, c2, c3, hn, h1, h2, h3⟩ := hs.moment.sync_name hc hb hz hth hth2 hi h hl
  obtain ⟨b1, b2, b3, b4, count, fpp, hn', r1, r2, r3, r4⟩ := hf
  rw [hn, e1] at hn'
  have := List.append_cancel_left hn'
  simp only [List.cons.injEq, and_true, true_and] at this
  obtain ⟨rfl, rfl, rfl, rfl⟩ := this
  rw [h1] at r1; rw [h2] at r2
  cases r1; cases r2
  have r3' := r3
  rw [Nat.mod_eq_of_lt (by omega), ← e2] at r3
  unfold Bloom.ofComponent at r3
  obtain ⟨bf1, r5, r6⟩ := Res.bind_eq_ok.mp r3
  unfold Bloom.new at r5
  obtain ⟨⟨k, m⟩, r7, r8⟩ := Res.bind_eq_ok.mp r5
  simp only [Res.ok.injEq] at r8
  split at r6
  · cases r6
  rename_i hx
  rw [not_not] at hx
  simp only [Res.ok.injEq] at r6
  subst r8
  subst r6
  simp only at hx hk
  have hb' := hb
  unfold freshFilter Bloom.new at hb'
  obtain ⟨⟨k0, m0⟩, p1, p2⟩ := Res.bind_eq_ok.mp hb'
  simp only [Res.ok.injEq] at p2
  have hz' := hz
  subst p2
  obtain ⟨z1, z2⟩ := hz'
  simp only [genSalts_length, List.length_replicate] at hk z1 z2 h3
  have hm := optimalParams_size r7 (by omega)
  have hmm : m = m0 := by omega
  subst hk hmm
  obtain ⟨bf2, g1, g2, g3⟩ := hs.moment.sync_fields pcfg ccfg _ t _ s s' n lt e1 e2 e3 hc hb hz th hth hth2 (r7.trans p1.symm) r4 hi h hl
  obtain ⟨d1, d2, d3, d4, cnt, f, hn2, q1, q2, q3, _⟩ := g1
  rw [hn, e1] at hn2
  have := List.append_cancel_left hn2
  simp only [List.cons.injEq, and_true, true_and] at this
  obtain ⟨rfl, rfl, rfl, rfl⟩ := this
  rw [h1] at q1; rw [h2] at q2
  cases q1; cases q2
  rw [r3'] at q3
  simp only [Res.ok.injEq] at q3
  subst q3
  exact ⟨g2, g3⟩

/-- What follows if a prefix is not found in the filter that the producer makes of a sync Interest: in all its life the producer
never sends Data for that Interest that lists the prefix, whatever it publishes.  Every such Data is an application nack or a
segment of a reply without the prefix. -/
theorem c111_never (cfg : Cfg) (P : Part) (hP : Part.Reach cfg P) (n : Name) (bf : Bloom) (t : Table) (hf : SyncFields cfg n bf t)
    (p : Name) (hp : bf.contains p ≠ .ok true) (d : Data) (hd : Out.data d ∈ P.log) (hn : n <+: d.name) :
    (d.contentType = .nack ∧ d.content = []) ∨
    ∃ (name : Name) (content : List Name) (v fr : Nat) (segs : List Data), IsSegmentation (name.appendVersion v) (encodeNames content) fr segs ∧ d ∈ segs ∧
      ∀ x, Name.appendNumber p x ∉ content := by
  obtain ⟨ops, h⟩ := hP
  rcases c39_history cfg ops P h d hd with h1 | ⟨pre, post, r, _, _, _, c, name, content, v, fr, segs, _, h2, h3, h4⟩
  · exact .inl h1
  refine .inr ⟨name, content, v, fr, segs, h2, h3, fun x hx => ?_⟩
  obtain ⟨i, hi⟩ := List.getElem?_of_mem h3
  have hdn := h2.name i d hi
  rw [Name.appendVersion] at hdn
  obtain ⟨r0, hr0⟩ := hn
  obtain ⟨c1, c2, c3, c4, count, th, rfl, f1, f2, f3, f4⟩ := hf
  rw [hdn] at hr0
  rcases h4 with ⟨rfl, _⟩ | ⟨key, bf', t', ⟨b1, b2, b3, b4, count', th', rfl, g1, g2, g3, g4⟩, rfl, h5⟩
  · simp only [List.append_assoc, List.append_cancel_left_eq, List.cons_append, List.cons.injEq] at hr0
    exact absurd hr0.1 (by decide)
  · simp only [List.append_assoc, List.append_cancel_left_eq, List.cons_append, List.cons.injEq] at hr0
    obtain ⟨_, rfl, rfl, rfl, rfl, _⟩ := hr0
    rw [f1] at g1; rw [f2] at g2
    cases g1; cases g2
    rw [f3] at g3
    cases g3
    obtain ⟨p', x', _, h7, h8⟩ := h5 _ hx
    have : p = p' := by
      unfold Name.appendNumber at h7
      exact (List.append_inj' h7 rfl).1
    subst this
    exact hp h8

/-- Parameters for 1 element: probability 0.001 (0x3F50624DD2F1A9FC) needs 14 bits and 10 hashes,
0.0019 (0x3F5F212D77318FC5) needs 13 bits and 9 hashes; both tables have 2 bytes.  The latter is transmitted as 1 thousandth. -/
def twoByteLibm : Libm where
  invalidProb := fun _ => false
  currM := fun _ p k => if p = 0x3F50624DD2F1A9FC#64 then (if k = 10 then 14#64 else 1000#64) else (if k = 9 then 13#64 else 1000#64)
  lt := fun a b => a.toNat < b.toNat
  inf := 0x7FF0000000000000#64
  toU32 := fun d => some (d.toNat % 4294967296)
  toThousandths := fun _ => some 1
  ofThousandths := fun _ => 0x3F50624DD2F1A9FC#64

def twoByteCCfg : CCfg := { sampleCCfg with bfCount := 1, bfFpp := 0x3F5F212D77318FC5#64, libm := twoByteLibm }
def twoByteCfg : Cfg := { sampleCfg with libm := twoByteLibm }

/-- C111 is false as stated: the sync Interest of a consumer made for 1 subscription with the probability 0.0019, subscribed to
/a, is read by the producer, since both tables have 2 bytes.  But the consumer sets the bits of 9 hash functions, the producer
asks for those of 10, and it does not find /a. -/
theorem c111_false : ¬ Spec.ReadMeansFound := by
  intro h
  have key : ∃ s, (Res.bind (Cons.init twoByteCCfg) fun s => Cons.run twoByteCCfg s [.call (.addSubscription pA 0 true), .call .sendHello,
        .helloSegment (ibfData (nameOf [115] ++ [HELLO]) .blob []), .helloComplete (encodeNames []) [] []]) = .ok s ∧
      (s.isSubscribed pA, s.iblt, (s.sendSyncInterest twoByteCCfg).get?.map fun s' => (decide (s'.log.take s.log.length = s.log), s'.log.drop s.log.length))
        = (true, [⟨8, List.replicate 72 0⟩], some (true, [.interest (nameOf [115] ++ [SYNC, ⟨8, [1]⟩, ⟨8, [1]⟩,
            ⟨8, [43, 67]⟩, ⟨8, List.replicate 72 0⟩]) 1000])) := Res.of_get? (by decide +kernel)
  obtain ⟨s, h1, h2⟩ := key
  rw [Res.bind_eq_ok] at h1
  obtain ⟨s0, h0, h1⟩ := h1
  simp only [Prod.mk.injEq] at h2
  obtain ⟨hsub, h2, h3⟩ := h2
  obtain ⟨s', h4, h5⟩ := Res.of_get? h3
  simp only [Prod.mk.injEq, decide_eq_true_eq] at h5
  have hl : s'.log = s.log ++ [.interest (nameOf [115] ++ [SYNC, ⟨8, [1]⟩, ⟨8, [1]⟩,
            ⟨8, [43, 67]⟩, ⟨8, List.replicate 72 0⟩]) 1000] := by
    conv_lhs => rw [← List.take_append_drop s.log.length s'.log, h5.1, h5.2]
  obtain ⟨t, ht⟩ : ∃ t, Table.initialize Codec.none 4 ⟨8, List.replicate 72 0⟩ = .ok t := by
    obtain ⟨t, ht, _⟩ := Res.of_get? (x := Table.initialize Codec.none 4 ⟨8, List.replicate 72 0⟩) (f := List.length) (b := 6)
      (by decide +kernel)
    exact ⟨t, ht⟩
  obtain ⟨bf0, hb, hsz⟩ : ∃ bf0, freshFilter twoByteCCfg = .ok bf0 ∧ (bf0.tableSize, bf0.bits.length) = (16, 2) :=
    Res.of_get? (by decide +kernel)
  simp only [Prod.mk.injEq] at hsz
  obtain ⟨bf, hbf, hno⟩ : ∃ bf, Bloom.ofComponent twoByteLibm (fun _ => 0#32) 1 0x3F50624DD2F1A9FC#64 ⟨8, [43, 67]⟩ = .ok bf ∧
      (bf.contains pA).get? = some false := Res.of_get? (by decide +kernel)
  have := h twoByteCfg twoByteCCfg bf0 ⟨8, List.replicate 72 0⟩ s s' _ _
    rfl rfl rfl (by decide) hb ⟨by omega, by omega⟩ ⟨s0, _, h0, h1⟩ h2 h4 hl bf t
    ⟨⟨8, [1]⟩, ⟨8, [1]⟩, ⟨8, [43, 67]⟩, ⟨8, List.replicate 72 0⟩, 1, 1, rfl, by decide, by decide, hbf, ht⟩ pA hsub
  rw [this] at hno
  cases hno

/-- What it means: the producer that has published /a for the first time parks the Interest of C111's witness instead of answering
it, and it does not answer when it publishes /a again.  The same Interest with the filter in which /a is found is answered. -/
theorem c111_unheard : ((Part.run twoByteCfg (Part.init twoByteCfg) [.addUserNode pA, .publishName pA none]).get?.bind fun P =>
      (Part.run twoByteCfg P [.recvInterest ⟨nameOf [115] ++ [SYNC, ⟨8, [1]⟩, ⟨8, [1]⟩, ⟨8, [43, 67]⟩, ⟨8, List.replicate 72 0⟩], 1000, 1⟩,
        .publishName pA none]).get?.bind fun P1 =>
      (Part.step twoByteCfg P (.recvInterest ⟨nameOf [115] ++ [SYNC, ⟨8, [1]⟩, ⟨8, [1]⟩, ⟨8, [255, 255]⟩, ⟨8, List.replicate 72 0⟩], 1000, 1⟩)).get?.map
        fun P2 => (P1.log.length, P1.pending.length, P1.base.getSeqNo pA, P2.log.length))
    = some (0, 1, some 2, 1) := by decide +kernel

/-- Non-vacuity for C111: with the default probability, which survives the transmission, both filters have 10 hash functions. -/
example : (freshFilter sampleCCfg).get?.map (fun b => b.salts.length)
    = (Bloom.new sampleCfg.libm sampleCfg.extraSalt 6 (sampleCCfg.libm.ofThousandths 1)).get?.map (fun b => b.salts.length) := rfl

end PSync
