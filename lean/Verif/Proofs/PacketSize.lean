import Verif.Proofs.Flow
import Verif.Proofs.Honest
import Verif.Spec.PacketSize
/-!
Sizes of packets, and what the names of the Data in a producer's log are made of.
-/
namespace PSync
open Spec

/-! ### Sizes of TLV elements -/

theorem varNum_length (n : Nat) : (varNum n).length ≤ 9 ∧ (n < 253 → (varNum n).length = 1) ∧ (n ≤ 65535 → (varNum n).length ≤ 3) := by
  unfold varNum
  split
  · simp [beBytes_length]
  · split
    · simp [beBytes_length]; omega
    · split
      · simp [beBytes_length]; omega
      · simp [beBytes_length]; omega

theorem tlv_length (t : Tlv) : t.encode.length = (varNum t.type).length + (varNum t.value.length).length + t.value.length := by
  unfold Tlv.encode
  simp only [List.length_append]
  omega

/-- An element of a small type. -/
theorem tlv_le {t : Tlv} (h : t.type < 253) (hl : t.value.length ≤ 65535) : t.encode.length ≤ 4 + t.value.length := by
  have h1 := (varNum_length t.type).2.1 h
  have h2 := (varNum_length t.value.length).2.2 hl
  rw [tlv_length]
  omega

/-- A short element of a small type. -/
theorem tlv_short {t : Tlv} (h : t.type < 253) (hl : t.value.length < 253) : t.encode.length = 2 + t.value.length := by
  have h1 := (varNum_length t.type).2.1 h
  have h2 := (varNum_length t.value.length).2.1 hl
  rw [tlv_length]
  omega

/-- An element of any type. -/
theorem tlv_any {t : Tlv} (hl : t.value.length ≤ 65535) : t.encode.length ≤ 12 + t.value.length := by
  have h1 := (varNum_length t.type).1
  have h2 := (varNum_length t.value.length).2.2 hl
  rw [tlv_length]
  omega

theorem tlv_any_short {t : Tlv} (hl : t.value.length < 253) : t.encode.length ≤ 10 + t.value.length := by
  have h1 := (varNum_length t.type).1
  have h2 := (varNum_length t.value.length).2.1 hl
  rw [tlv_length]
  omega

theorem tlv_ge (t : Tlv) : t.value.length ≤ t.encode.length := by
  rw [tlv_length]; omega

theorem tlv_nni {ty : Nat} (h : ty < 253) (x : Nat) : (Tlv.encode ⟨ty, nniBytes x⟩).length ≤ 10 := by
  have h1 := nniBytes_length x
  have := tlv_short (t := ⟨ty, nniBytes x⟩) h (by simp only; omega)
  simp only at this
  omega

theorem wireValue_append (a b : Name) : Name.wireValue (a ++ b) = Name.wireValue a ++ Name.wireValue b := by
  unfold Name.wireValue
  rw [List.flatMap_append]

theorem wireValue_one (c : Component) : Name.wireValue [c] = c.encode := by
  simp [Name.wireValue]

theorem wireValue_two (c d : Component) : Name.wireValue [c, d] = c.encode ++ d.encode := by
  simp [Name.wireValue]

/-- A Data with at most 4400 bytes of content and a final block number. -/
theorem dataWire_le {sig : Bytes} {d : Data} (hc : d.content.length ≤ 4400) {k : Nat}
    (hf : d.finalBlock = some ⟨50, nniBytes k⟩) (hn : d.name.wireValue.length + sig.length ≤ 60000) :
    (dataWire sig d).length ≤ d.name.wireValue.length + sig.length + 4439 := by
  have h1 : d.name.toTlv.encode.length ≤ 4 + d.name.wireValue.length :=
    tlv_le (t := d.name.toTlv) (Nat.le_of_ble_eq_true rfl) (by simp only [Name.toTlv]; omega)
  have h2 : (metaWire d).length ≤ 27 := by
    unfold metaWire
    rw [hf]
    simp only
    have e1 : (if d.contentType = ContentType.blob then [] else Tlv.encode ⟨24, [3#8]⟩ : Bytes).length ≤ 3 := by
      split
      · simp
      · decide
    have e2 : (if d.freshness = 0 then [] else Tlv.encode ⟨25, nniBytes d.freshness⟩ : Bytes).length ≤ 10 := by
      split
      · simp
      · exact tlv_nni (by decide) _
    have e3 := tlv_nni (ty := 50) (by decide) k
    have e4 := tlv_short (t := ⟨26, Tlv.encode ⟨50, nniBytes k⟩⟩) (Nat.le_of_ble_eq_true rfl) (by simp only; omega)
    simp only at e4
    have e5 := tlv_short (t := ⟨20, (if d.contentType = ContentType.blob then [] else Tlv.encode ⟨24, [3#8]⟩ : Bytes) ++
      ((if d.freshness = 0 then [] else Tlv.encode ⟨25, nniBytes d.freshness⟩ : Bytes) ++
        Tlv.encode ⟨26, Tlv.encode ⟨50, nniBytes k⟩⟩)⟩) (Nat.le_of_ble_eq_true rfl) (by simp only [List.length_append]; omega)
    rw [e5]
    simp only [List.length_append]
    omega
  have h3 : (Tlv.encode ⟨21, d.content⟩).length ≤ 4 + d.content.length :=
    tlv_le (t := ⟨21, d.content⟩) (Nat.le_of_ble_eq_true rfl) (by simp only; omega)
  unfold dataWire
  have h4 := tlv_le (t := ⟨6, d.name.toTlv.encode ++ (metaWire d ++ (Tlv.encode ⟨21, d.content⟩ ++ sig))⟩) (Nat.le_of_ble_eq_true rfl)
    (by simp only [List.length_append]; omega)
  simp only [List.length_append] at h4
  omega

theorem dataWire_ge (sig : Bytes) (d : Data) : d.name.wireValue.length + d.content.length + sig.length ≤ (dataWire sig d).length := by
  have h1 : d.name.wireValue.length ≤ d.name.toTlv.encode.length := tlv_ge d.name.toTlv
  have h2 : d.content.length ≤ (Tlv.encode ⟨21, d.content⟩).length := tlv_ge ⟨21, d.content⟩
  have h3 := tlv_ge ⟨6, d.name.toTlv.encode ++ (metaWire d ++ (Tlv.encode ⟨21, d.content⟩ ++ sig))⟩
  unfold dataWire
  simp only [List.length_append] at h3
  omega

theorem interestWire_le {n : Name} {nonce t : Nat} (hn : n.wireValue.length ≤ 60000) :
    (interestWire n nonce t).length ≤ n.wireValue.length + 28 := by
  have h1 : n.toTlv.encode.length ≤ 4 + n.wireValue.length :=
    tlv_le (t := n.toTlv) (Nat.le_of_ble_eq_true rfl) (by simp only [Name.toTlv]; omega)
  have h2 : (Tlv.encode ⟨33, []⟩).length = 2 := by decide
  have h3 : (Tlv.encode ⟨18, []⟩).length = 2 := by decide
  have h4 : (Tlv.encode ⟨10, beBytes 4 nonce⟩).length = 6 := by
    have := tlv_short (t := ⟨10, beBytes 4 nonce⟩) (Nat.le_of_ble_eq_true rfl) (by simp only [beBytes_length]; omega)
    rw [this]
    simp only [beBytes_length]
  have h5 := tlv_nni (ty := 12) (by decide) t
  unfold interestWire
  have h6 := tlv_le (t := ⟨5, n.toTlv.encode ++ (Tlv.encode ⟨33, []⟩ ++ (Tlv.encode ⟨18, []⟩ ++ (Tlv.encode ⟨10, beBytes 4 nonce⟩ ++
    Tlv.encode ⟨12, nniBytes t⟩)))⟩) (Nat.le_of_ble_eq_true rfl) (by simp only [List.length_append]; omega)
  simp only [List.length_append] at h6
  omega

theorem interestWire_ge (n : Name) (nonce t : Nat) : n.wireValue.length ≤ (interestWire n nonce t).length := by
  have h1 : n.wireValue.length ≤ n.toTlv.encode.length := tlv_ge n.toTlv
  unfold interestWire
  have h6 := tlv_ge ⟨5, n.toTlv.encode ++ (Tlv.encode ⟨33, []⟩ ++ (Tlv.encode ⟨18, []⟩ ++ (Tlv.encode ⟨10, beBytes 4 nonce⟩ ++
    Tlv.encode ⟨12, nniBytes t⟩)))⟩
  simp only [List.length_append] at h6
  omega

/-- Packets of a reply. -/
theorem segment_size {n : Name} {v : Nat} {buf : Bytes} {fr : Nat} {d : Data} (hd : d ∈ segmentData (n.appendVersion v) buf fr) :
    d.content.length ≤ 4400 ∧ (∃ k, d.finalBlock = some ⟨50, nniBytes k⟩) ∧
    d.name.wireValue.length ≤ n.wireValue.length + 20 ∧ n.wireValue.length ≤ d.name.wireValue.length := by
  have h := segmentData_spec (n.appendVersion v) buf fr
  obtain ⟨i, hi⟩ := List.getElem?_of_mem hd
  refine ⟨h.size d hd, ⟨_, h.final d hd⟩, ?_⟩
  rw [h.name i d hi]
  unfold Name.appendVersion
  rw [wireValue_append, wireValue_append, wireValue_one, wireValue_one, List.length_append, List.length_append]
  have e1 := tlv_nni (ty := TlvType.version) (by decide) v
  have e2 := tlv_nni (ty := 50) (by decide) i
  constructor <;> omega

theorem cell_encode_length (c : Cell) : c.encode.length = 12 := by
  unfold Cell.encode
  simp [beBytes_length]

theorem table_encode_length (t : Table) : t.encode.length = 12 * t.length := by
  unfold Table.encode
  induction t with
  | nil => rfl
  | cons c t ih =>
    rw [List.flatMap_cons, List.length_append, ih, cell_encode_length, List.length_cons]
    omega

/-- The IBF component without compression. -/
theorem toComponent_none {t : Table} {c : Component} (h : t.toComponent Codec.none = .ok c) :
    c.type = TlvType.generic ∧ c.value.length = 12 * t.length := by
  unfold Table.toComponent Codec.none at h
  simp only [Res.ofOption, Res.ok_bind, Res.ok.injEq] at h
  subst h
  exact ⟨rfl, table_encode_length t⟩

theorem initialize_none {e : Nat} {c : Component} {t : Table} (h : Table.initialize Codec.none e c = .ok t) :
    c.value.length = 12 * nCells e := by
  unfold Table.initialize Codec.none at h
  simp only [Res.ofOption, Res.ok_bind] at h
  split at h
  · cases h
  · rename_i hl
    simpa [ENTRY_SIZE] using hl

theorem nackData_size {cfg : Cfg} (hc : cfg.ibltCodec = Codec.none) {b : Base} {n : Name} {d : Data} (h : nackData cfg b n = .ok d) :
    ∃ c : Component, c.type = TlvType.generic ∧ c.value.length = 12 * b.iblt.length ∧
      d.name = n ++ [c, ⟨50, nniBytes 0⟩] ∧ d.content = [] ∧ d.finalBlock = some ⟨50, nniBytes 0⟩ := by
  unfold nackData at h
  simp only [Res.bind_eq_ok, Res.ok.injEq] at h
  obtain ⟨c, h1, rfl⟩ := h
  rw [hc] at h1
  obtain ⟨h2, h3⟩ := toComponent_none h1
  refine ⟨c, h2, h3, ?_, rfl, rfl⟩
  unfold Name.appendSegment
  rw [List.append_assoc]
  rfl

theorem dataOf_mem_iff {l : List Out} {d : Data} : d ∈ dataOf l ↔ Out.data d ∈ l := by
  induction l with
  | nil => simp [dataOf]
  | cons o l ih => cases o <;> simp [dataOf, ih]

/-! ### Which Data a FullProducer puts -/

namespace Full

/-- `n` is a name that is looked at as a sync Interest. -/
def Parses (cfg : Cfg) (n : Name) : Prop :=
  ∃ c2 c1 num t, (n.drop cfg.syncPrefix.length).length = 2 ∧ n.getFromEnd 2 = .ok c2 ∧ n.getFromEnd 1 = .ok c1 ∧
    c1.toNumber = .ok num ∧ Table.initialize cfg.ibltCodec cfg.expected c2 = .ok t

/-- Names of kind `K` are answered with Data of kind `D`, nacks are of kind `D`, own Interests of kind `I`. -/
structure Laws (cfg : Cfg) (K : Name → Prop) (D : Data → Prop) (I : Name → Nat → Prop) : Prop where
  seg : ∀ n, K n → ∀ v buf fr, ∀ d ∈ segmentData (n.appendVersion v) buf fr, D d
  nack : ∀ b d, Base.Steps (fun _ => True) (Base.new cfg) b → nackData cfg b cfg.syncPrefix = .ok d → D d
  int : ∀ b n, Base.Steps (fun _ => True) (Base.new cfg) b → syncName cfg b = .ok n → I n cfg.lifetime

/-- All Data are of kind `D`, all own Interests of kind `I`, all parked and delayed Interests of kind `K`. -/
structure Put (cfg : Cfg) (K : Name → Prop) (D : Data → Prop) (I : Name → Nat → Prop) (s : Full) : Prop where
  store : ∀ d ∈ s.pub.store, D d
  log : ∀ d, Out.data d ∈ s.log → D d
  ask : ∀ n t, Out.interest n t ∈ s.log → I n t
  park : ∀ n e, s.pending.find n = some e → K n
  wait : ∀ n w, s.waiting.find n = some w → K n
  base : Base.Steps (fun _ => True) (Base.new cfg) s.base

variable {cfg : Cfg} {K : Name → Prop} {D : Data → Prop} {I : Name → Nat → Prop}

theorem Put.own (hL : Laws cfg K D I) {b : Base} (hb : Base.Steps (fun _ => True) (Base.new cfg) b) {is : List Out}
    (h : OwnInterest cfg b is) : (∀ d, Out.data d ∉ is) ∧ ∀ n t, Out.interest n t ∈ is → I n t := by
  rcases h with rfl | ⟨n, hn, rfl⟩
  · simp
  · refine ⟨by simp, ?_⟩
    intro m t hm
    simp only [List.mem_singleton, Out.interest.injEq] at hm
    obtain ⟨rfl, rfl⟩ := hm
    exact hL.int b m hb hn

/-- The observable part after a reply. -/
theorem Put.replied (hL : Laws cfg K D I) {s s' : Full} (hs : Put cfg K D I s) {n : Name} (hk : K n) {content : List Name} {fr : Nat}
    (h : Replied cfg s s' n content fr) : (∀ d ∈ s'.pub.store, D d) ∧ (∀ d, Out.data d ∈ s'.log → D d) ∧
      ∀ n t, Out.interest n t ∈ s'.log → I n t := by
  obtain ⟨buf, r, is, _, h2, h3, h4, h5, _⟩ := h
  obtain ⟨o1, o2⟩ := Put.own hL hs.base h5
  refine ⟨?_, ?_, ?_⟩
  · intro d hd
    rw [h3, (PSync.publish_ok h2).1] at hd
    rcases storeFold_mem _ hd with hd | hd
    · exact hs.store d hd
    · exact hL.seg n hk _ _ _ d hd
  · intro d hd
    rw [h4, List.mem_append, List.mem_append] at hd
    rcases hd with (hd | hd) | hd
    · exact hs.log d hd
    · obtain ⟨d', h6, h7⟩ := List.mem_map.mp hd
      cases h7
      exact hL.seg n hk _ _ _ d (publish_data_mem h2 h6)
    · exact absurd hd (o1 d)
  · intro m t hm
    rw [h4, List.mem_append, List.mem_append] at hm
    rcases hm with (hm | hm) | hm
    · exact hs.ask m t hm
    · simp at hm
    · exact o2 m t hm

theorem Put.quiet (hL : Laws cfg K D I) {s s' : Full} (hs : Put cfg K D I s) {is : List Out} (hp : s'.pub = s.pub)
    (hl : s'.log = s.log ++ is) (h : OwnInterest cfg s.base is) : (∀ d ∈ s'.pub.store, D d) ∧ (∀ d, Out.data d ∈ s'.log → D d) ∧
      ∀ n t, Out.interest n t ∈ s'.log → I n t := by
  obtain ⟨o1, o2⟩ := Put.own hL hs.base h
  refine ⟨by rw [hp]; exact hs.store, ?_, ?_⟩
  · intro d hd
    rw [hl, List.mem_append] at hd
    exact hd.elim (hs.log d) (fun h => absurd h (o1 d))
  · intro n t hn
    rw [hl, List.mem_append] at hn
    exact hn.elim (hs.ask n t) (o2 n t)

theorem Put.emit {s : Full} (hs : Put cfg K D I s) {d : Data} (hd : D d) : Put cfg K D I (s.emit (.data d)) := by
  refine ⟨hs.store, ?_, ?_, hs.park, hs.wait, hs.base⟩
  · intro d' hd'
    simp only [Full.emit, List.mem_append, List.mem_singleton, Out.data.injEq] at hd'
    rcases hd' with h | rfl
    · exact hs.log d' h
    · exact hd
  · intro n t hn
    simp only [Full.emit, List.mem_append, List.mem_singleton] at hn
    rcases hn with h | h
    · exact hs.ask n t h
    · cases h

theorem onSyncInterest_put (hL : Laws cfg K D I) {s s' : Full} (hs : Put cfg K D I s) {i : Interest} {t : Bool}
    (hk : Parses cfg i.name → K i.name) (h : onSyncInterest cfg s i t = .ok s') : Put cfg K D I s' := by
  have hb := onSyncInterest_steps (R := fun _ => True) h
  have hh := onSyncInterest_handled h
  rcases onSyncInterest_cases h with ⟨d, hd, rfl⟩ | ⟨hst, ⟨d, _, hd, rfl⟩ | rfl | ⟨c2, c1, num, ib, df, e1, e2, e3, e4, e5, e6, h1⟩⟩
  · exact hs.emit (hs.store d (storeFind_some hd).1)
  · exact hs.emit (hL.nack _ d hs.base hd)
  · exact hs
  · have hk := hk ⟨c2, c1, num, ib, e1, e2, e3, e4, e5⟩
    have hv : (∀ d ∈ s'.pub.store, D d) ∧ (∀ d, Out.data d ∈ s'.log → D d) ∧ ∀ n t, Out.interest n t ∈ s'.log → I n t := by
      rcases h1 with ⟨_, h1⟩ | ⟨_, h1⟩
      · rcases onUndecodable_reply h1 with ⟨g1, is, g2, g3⟩ | ⟨g, _⟩
        · exact hs.quiet hL g1 g2 g3
        · exact hs.replied hL hk g
      · rcases (onDecoded_reply (hs.base.inv (Base.inv_new cfg)) h1).2 with ⟨g1, g2⟩ | ⟨content, g, _⟩
        · exact hs.quiet hL g1 (is := []) (by rw [g2, List.append_nil]) (Or.inl rfl)
        · exact hs.replied hL hk g
    refine ⟨hv.1, hv.2.1, hv.2.2, ?_, ?_, hs.base.trans hb⟩
    · intro n e he
      rcases hh.park n e he with g | ⟨rfl, _⟩
      · exact hs.park n e g
      · exact hk
    · intro n w hw
      by_cases hn : n = i.name
      · subst hn; exact hk
      · rw [hh.other n hn] at hw
        exact hs.wait n w hw

theorem processOne_put (hL : Laws cfg K D I) {s s' : Full} (hs : Put cfg K D I s) {n : Name} (h : processOne cfg s n = .ok s') :
    Put cfg K D I s' := by
  unfold processOne at h
  cases hw : s.waiting.find n with
  | none => simp only [hw, Res.ok.injEq] at h; subst h; exact hs
  | some w =>
    have hk := hs.wait n w hw
    have er : ∀ {a : Full}, Put cfg K D I a → Put cfg K D I { a with waiting := a.waiting.erase n } := by
      intro a ha
      refine ⟨ha.store, ha.log, ha.ask, ha.park, ?_, ha.base⟩
      intro m x hx
      simp only [NMap.find_erase] at hx
      split at hx
      · cases hx
      · exact ha.wait m x hx
    simp only [hw] at h
    split at h
    · cases h; exact er hs
    · simp only [Res.bind_eq_ok] at h
      obtain ⟨s1, h1, h2⟩ := h
      have h0 : Put cfg K D I { s with waiting := s.waiting.set n { w with numTries := w.numTries + 1 } } := by
        refine ⟨hs.store, hs.log, hs.ask, hs.park, ?_, hs.base⟩
        intro m x hx
        simp only [NMap.find_set] at hx
        split at hx
        · rename_i e; subst e; exact hk
        · exact hs.wait m x hx
      have h3 := onSyncInterest_put hL h0 (fun _ => hk) h1
      cases hw2 : s1.waiting.find n with
      | none => simp only [hw2, Res.ok.injEq] at h2; subst h2; exact h3
      | some w2 =>
        simp only [hw2] at h2
        split at h2
        · cases h2; exact er h3
        · cases h2; exact h3

theorem processWaiting_put (hL : Laws cfg K D I) {s s' : Full} (hs : Put cfg K D I s) (h : processWaiting cfg s = .ok s') :
    Put cfg K D I s' :=
  foldRes_inv (P := fun a : Full => Put cfg K D I a) _ (fun _ _ _ _ h1 h2 => processOne_put hL h1 h2) hs h

theorem satisfyOne_put (hL : Laws cfg K D I) {s s' : Full} (hs : Put cfg K D I s) {u : Name} {e : Name × FPending} (hk : K e.1)
    (h : satisfyOne cfg u s e = .ok s') : Put cfg K D I s' := by
  unfold satisfyOne at h
  simp only [Res.bind_eq_ok, Res.ok.injEq] at h
  obtain ⟨d, _, s1, h4, rfl⟩ := h
  have hc := sendSyncData_core h4
  obtain ⟨v1, v2, v3⟩ := hs.replied hL hk (sendSyncData_replied h4)
  refine ⟨v1, v2, v3, ?_, ?_, ?_⟩
  · intro n x hx
    simp only [deletePending, NMap.find_erase, hc.pending] at hx
    split at hx
    · cases hx
    · exact hs.park n x hx
  · intro n x hx
    simp only [deletePending, hc.waiting] at hx
    exact hs.wait n x hx
  · simp only [deletePending, hc.base]
    exact hs.base

theorem call_put (hL : Laws cfg K D I) {s s' : Full} (hl : s.pending.Sorted) (hs : Put cfg K D I s) {c : Call} (h : call cfg s c = .ok s') :
    Put cfg K D I s' := by
  have hb : Base.Steps (fun _ => True) (Base.new cfg) s'.base := hs.base.trans ((call_steps h).mono (fun _ _ => trivial))
  cases c with
  | addUserNode p =>
    simp only [call, Res.ok.injEq] at h
    subst h
    exact ⟨hs.store, hs.log, hs.ask, hs.park, hs.wait, hb⟩
  | removeUserNode p =>
    simp only [call, Res.bind_eq_ok, Res.ok.injEq] at h
    obtain ⟨b, _, rfl⟩ := h
    exact ⟨hs.store, hs.log, hs.ask, hs.park, hs.wait, hb⟩
  | publishName p q =>
    simp only [call, publishName] at h
    split at h
    · cases h; exact hs
    · rename_i cur hcur
      simp only [Res.bind_eq_ok] at h
      obtain ⟨b, hup, h2⟩ := h
      have h0 : Put cfg K D I { s with base := b, waitOut := false, made := s.made ++ [(p, newSeq q cur)] } :=
        ⟨hs.store, hs.log, hs.ask, hs.park, hs.wait, hs.base.trans (Relation.ReflTransGen.single (.update p _ (newSeq_lt _ _) hup))⟩
      refine foldRes_inv (P := fun a : Full => Put cfg K D I a) s.pending (fun a e b he h1 h3 => ?_) h0 h2
      exact satisfyOne_put hL h1 (hs.park e.1 e.2 (NMap.find_of_mem hl he)) h3

theorem calls_put (hL : Laws cfg K D I) {s s' : Full} (hl : s.pending.Sorted) (hs : Put cfg K D I s) {cs : List Call}
    (h : foldRes (call cfg) s cs = .ok s') : Put cfg K D I s' := by
  have := foldRes_inv (P := fun a : Full => Put cfg K D I a ∧ a.pending.Sorted) cs
    (fun a _ b _ ⟨h1, h2⟩ h4 => ⟨call_put hL h2 h1 h4, (call_shrunk h4).psorted h2⟩) ⟨hs, hl⟩ h
  exact this.1

theorem sendSyncInterest_put (hL : Laws cfg K D I) {s s' : Full} (hs : Put cfg K D I s) (h : sendSyncInterest cfg s = .ok s') :
    Put cfg K D I s' := by
  have hc := sendSyncInterest_core h
  obtain ⟨h1, is, h2, h3⟩ := sendSyncInterest_log h
  obtain ⟨v1, v2, v3⟩ := hs.quiet hL h1 h2 h3
  exact ⟨v1, v2, v3, by rw [hc.pending]; exact hs.park, by rw [hc.waiting]; exact hs.wait, by rw [hc.base]; exact hs.base⟩

theorem Put.congr {s s' : Full} (hs : Put cfg K D I s) (hp : s'.pub = s.pub) (hl : s'.log = s.log) (ht : s'.pending = s.pending)
    (hw : s'.waiting = s.waiting) (hb : s'.base = s.base) : Put cfg K D I s' :=
  ⟨by rw [hp]; exact hs.store, by rw [hl]; exact hs.log, by rw [hl]; exact hs.ask, by rw [ht]; exact hs.park,
    by rw [hw]; exact hs.wait, by rw [hb]; exact hs.base⟩

theorem Put.delete {s : Full} (hs : Put cfg K D I s) (n : Name) : Put cfg K D I (s.deletePending n) := by
  refine ⟨hs.store, hs.log, hs.ask, ?_, hs.wait, hs.base⟩
  intro m x hx
  simp only [deletePending, NMap.find_erase] at hx
  split at hx
  · cases hx
  · exact hs.park m x hx

theorem step_put (hL : Laws cfg K D I) {s s' : Full} (hl : s.pending.Sorted) (hs : Put cfg K D I s) {op : Op}
    (hk : ∀ i, op = .recvInterest i → cfg.syncPrefix.isPrefixOf i.name = true → Parses cfg i.name → K i.name)
    (h : step cfg s op = .ok s') : Put cfg K D I s' := by
  cases op with
  | call c => exact call_put hL hl hs h
  | recvInterest i =>
    simp only [step] at h
    split at h
    · rename_i hp
      exact onSyncInterest_put hL hs (hk i rfl hp) h
    · cases h; exact hs
  | segment f =>
    simp only [step] at h
    split at h
    · cases h
      split <;> exact hs.congr rfl rfl rfl rfl rfl
    · cases h; exact hs
  | complete buf acts =>
    simp only [step] at h
    split at h
    · rename_i f _
      split at h
      · unfold onSyncData at h
        simp only at h
        have h0 : Put cfg K D I (s.stopFetcher.deletePending f.name) := Put.delete (s := s.stopFetcher) (hs.congr rfl rfl rfl rfl rfl) f.name
        have hl0 : (s.stopFetcher.deletePending f.name).pending.Sorted := NMap.sorted_erase hl _
        split at h
        · cases h; exact h0
        · simp only [Res.bind_eq_ok] at h
          obtain ⟨r, h1, h2⟩ := h
          split at h2
          · cases h2
            exact ⟨h0.store, h0.log, h0.ask, h0.park, h0.wait, h0.base.trans (merge_steps _ h1)⟩
          · simp only [Res.bind_eq_ok] at h2
            obtain ⟨s1, h3, h4⟩ := h2
            have hx : Put cfg K D I ((({ s.stopFetcher.deletePending f.name with base := r.2 } : Full)).emit (.update r.1)) := by
              refine ⟨h0.store, ?_, ?_, h0.park, h0.wait, h0.base.trans (merge_steps _ h1)⟩
              · intro d hd
                simp only [Full.emit, List.mem_append, List.mem_singleton] at hd
                rcases hd with hd | hd
                · exact h0.log d hd
                · cases hd
              · intro d t hd
                simp only [Full.emit, List.mem_append, List.mem_singleton] at hd
                rcases hd with hd | hd
                · exact h0.ask d t hd
                · cases hd
            have h5 := calls_put hL (s := (({ s.stopFetcher.deletePending f.name with base := r.2 } : Full)).emit (.update r.1)) hl0 hx h3
            exact processWaiting_put hL (s := { s1 with
              sched := some (s1.now + cfg.jitter s1.draws, .renew)
              draws := s1.draws + 1
              waitOut := false }) (h5.congr rfl rfl rfl rfl rfl) h4
      · cases h; exact hs.congr rfl rfl rfl rfl rfl
    · cases h; exact hs
  | error t =>
    simp only [step] at h
    split at h
    · split at h
      · cases h
        split <;> exact hs.congr rfl rfl rfl rfl rfl
      · cases h; exact hs.congr rfl rfl rfl rfl rfl
    · cases h; exact hs.congr rfl rfl rfl rfl rfl
  | tick t =>
    simp only [step, Res.ok.injEq] at h
    subst h
    split <;> exact hs.congr rfl rfl rfl rfl rfl
  | fireSync =>
    simp only [step] at h
    split at h
    · split at h
      · split at h
        · exact sendSyncInterest_put hL (s := { s with sched := none }) (hs.congr rfl rfl rfl rfl rfl) h
        · exact sendSyncInterest_put hL (s := { s with sched := none, waitOut := false }) (hs.congr rfl rfl rfl rfl rfl) h
      · cases h; exact hs.congr rfl rfl rfl rfl rfl
    · cases h; exact hs.congr rfl rfl rfl rfl rfl
  | fireDelay =>
    simp only [step] at h
    split at h
    · split at h
      · simp only [Res.bind_eq_ok, Res.ok.injEq] at h
        obtain ⟨s1, h1, rfl⟩ := h
        have h2 := processWaiting_put hL (s := { s with delayTimer := none }) (hs.congr rfl rfl rfl rfl rfl) h1
        rw [scheduleProcess_eq]
        exact h2.congr rfl rfl rfl rfl rfl
      · cases h; exact hs.congr rfl rfl rfl rfl rfl
    · cases h; exact hs.congr rfl rfl rfl rfl rfl
  | expire n =>
    simp only [step] at h
    split at h
    · cases h
      split
      · exact hs.delete n
      · exact hs.congr rfl rfl rfl rfl rfl
    · cases h; exact hs.congr rfl rfl rfl rfl rfl
  | fireStore =>
    simp only [step, Res.ok.injEq] at h
    subst h
    exact ⟨fun d hd => hs.store d (fire_mem.mp hd).1, hs.log, hs.ask, hs.park, hs.wait, hs.base⟩

theorem fresh_put (K : Name → Prop) (D : Data → Prop) (I : Name → Nat → Prop) : Put cfg K D I (fresh cfg) :=
  ⟨by simp [fresh, SegPub.empty], by simp [fresh], by simp [fresh], fun n e h => (by cases h), fun n e h => (by cases h),
    Relation.ReflTransGen.refl⟩

theorem run_put (hL : Laws cfg K D I) (ops : List Op) : ∀ {s s' : Full}, Lists cfg s → Put cfg K D I s →
    (∀ i, Op.recvInterest i ∈ ops → cfg.syncPrefix.isPrefixOf i.name = true → Parses cfg i.name → K i.name) →
    run cfg s ops = .ok s' → Put cfg K D I s' := by
  induction ops with
  | nil =>
    intro s s' _ hs _ h
    simp only [run, foldRes, Res.ok.injEq] at h
    subst h
    exact hs
  | cons op ops ih =>
    intro s s' hl hs hk h
    simp only [run, foldRes, Res.bind_eq_ok] at h
    obtain ⟨s1, h1, h2⟩ := h
    refine ih ((step_lists hl h1).lists hl) (step_put hL hl.psorted hs ?_ h1) (fun i hi => hk i (List.mem_cons_of_mem _ hi)) h2
    rintro i rfl
    exact hk i (List.mem_cons_self ..)

end Full

/-! ### Which Data a PartialProducer puts -/

namespace Part

/-- `c` is the IBF component of some state. -/
def IsIbf (cfg : Cfg) (c : Component) : Prop :=
  ∃ b, Base.Steps (fun _ => True) (Base.new cfg) b ∧ b.iblt.toComponent cfg.ibltCodec = .ok c

/-- Names of kind `K` are answered with Data of kind `D`, and so are hello Interests. -/
structure Laws (cfg : Cfg) (K : Name → Prop) (D : Data → Prop) : Prop where
  seg : ∀ n c, K n → IsIbf cfg c → ∀ v buf fr, ∀ d ∈ segmentData ((n ++ [c]).appendVersion v) buf fr, D d
  hello : ∀ c, IsIbf cfg c → ∀ v buf fr, ∀ d ∈ segmentData ((cfg.syncPrefix ++ [HELLO, c]).appendVersion v) buf fr, D d
  nack : ∀ n b d, K n → Base.Steps (fun _ => True) (Base.new cfg) b → nackData cfg b n = .ok d → D d

/-- All Data are of kind `D`, all parked Interests of kind `K`. -/
structure Put (cfg : Cfg) (K : Name → Prop) (D : Data → Prop) (s : Part) : Prop where
  store : ∀ d ∈ s.pub.store, D d
  log : ∀ d, Out.data d ∈ s.log → D d
  park : ∀ n e, s.pending.find n = some e → K n
  base : Base.Steps (fun _ => True) (Base.new cfg) s.base

variable {cfg : Cfg} {K : Name → Prop} {D : Data → Prop}

theorem Put.published {s : Part} (hs : Put cfg K D s) {now v : Nat} {iname dname : Name} {buf : Bytes} {fr : Nat}
    {r : SegPub × List Data} (h : s.pub.publish cfg.imsLimit now v iname dname buf fr = .ok r)
    (hd : ∀ d ∈ segmentData (dname.appendVersion v) buf fr, D d) :
    (∀ d ∈ r.1.store, D d) ∧ ∀ d, Out.data d ∈ s.log ++ r.2.map Out.data → D d := by
  constructor
  · intro d hd'
    rw [(PSync.publish_ok h).1] at hd'
    rcases storeFold_mem _ hd' with hd' | hd'
    · exact hs.store d hd'
    · exact hd d hd'
  · intro d hd'
    rw [List.mem_append] at hd'
    rcases hd' with hd' | hd'
    · exact hs.log d hd'
    · obtain ⟨d', h6, h7⟩ := List.mem_map.mp hd'
      cases h7
      exact hd d (publish_data_mem h h6)

theorem Put.emit {s : Part} (hs : Put cfg K D s) {d : Data} (hd : D d) : Put cfg K D (s.emit (.data d)) := by
  refine ⟨hs.store, ?_, hs.park, hs.base⟩
  intro d' hd'
  simp only [Part.emit, List.mem_append, List.mem_singleton, Out.data.injEq] at hd'
  rcases hd' with h | rfl
  · exact hs.log d' h
  · exact hd

theorem onHelloInterest_put (hL : Laws cfg K D) {s s' : Part} (hs : Put cfg K D s) {i : Interest} (h : onHelloInterest cfg s i = .ok s') :
    Put cfg K D s' := by
  unfold onHelloInterest at h
  split at h
  · rename_i d hd
    cases h; exact hs.emit (hs.store d (storeFind_some hd).1)
  · simp only [Res.bind_eq_ok] at h
    obtain ⟨l, _, c4, _, h⟩ := h
    split at h
    · cases h; exact hs
    · simp only [Res.bind_eq_ok] at h
      obtain ⟨c, hc, h⟩ := h
      obtain ⟨r, hr, rfl⟩ := publish_ok h
      obtain ⟨v1, v2⟩ := hs.published hr (hL.hello c ⟨_, hs.base, hc⟩ _ _ _)
      exact ⟨v1, v2, hs.park, hs.base⟩

theorem onSyncInterest_put (hL : Laws cfg K D) {s s' : Part} (hs : Put cfg K D s) {i : Interest}
    (hp : (cfg.syncPrefix ++ [SYNC]) <+: i.name)
    (hk : ∀ key bf t, SyncFields cfg key bf t → AsksFor i.name key → K key)
    (h : onSyncInterest cfg s i = .ok s') : Put cfg K D s' := by
  rcases onSyncInterest_cases' hp h with ⟨d, hd, rfl⟩ | ⟨_, rfl | ⟨key, bf, iblt, hf, ha, h1⟩⟩
  · exact hs.emit (hs.store d (storeFind_some hd).1)
  · exact hs
  · have hk := hk key bf iblt hf ha
    obtain ⟨diff, _, ⟨_, d, hn, rfl⟩ | ⟨_, content, _, ⟨_, c, r, hc, hr, rfl⟩ | ⟨_, _, rfl⟩⟩⟩ := onSyncParsed_ok h1
    · exact hs.emit (hL.nack key _ d hk hs.base hn)
    · obtain ⟨v1, v2⟩ := hs.published hr (hL.seg key c hk ⟨_, hs.base, hc⟩ _ _ _)
      exact ⟨v1, v2, hs.park, hs.base⟩
    · refine ⟨hs.store, hs.log, ?_, hs.base⟩
      intro n e he
      simp only [NMap.find_set] at he
      split at he
      · rename_i hn; subst hn; exact hk
      · exact hs.park n e he

theorem satisfyOne_put (hL : Laws cfg K D) {s s' : Part} (hs : Put cfg K D s) {p : Name} {e : Name × PPending} (hk : K e.1)
    (h : satisfyOne cfg p s e = .ok s') : Put cfg K D s' := by
  have er : ∀ n x, NMap.find (s.pending.erase e.1) n = some x → K n := by
    intro n x hx
    rw [NMap.find_erase] at hx
    split at hx
    · cases hx
    · exact hs.park n x hx
  obtain ⟨diff, hd, ⟨hc, rfl⟩ | ⟨hc, sub, hsub, ⟨rfl, c, r, h3, h4, rfl⟩ | ⟨rfl, hth, c, r, h3, h4, rfl⟩ | ⟨rfl, hth, rfl⟩⟩⟩ := satisfyOne_ok h
  · exact ⟨hs.store, hs.log, er, hs.base⟩
  · have hb : Base.Steps (fun _ => True) (Base.new cfg) (s.base.index p).2 :=
      hs.base.trans (Relation.ReflTransGen.single (Base.step_index _ _))
    obtain ⟨v1, v2⟩ := hs.published h4 (hL.seg e.1 c hk ⟨_, hb, h3⟩ _ _ _)
    exact ⟨v1, v2, er, hb⟩
  · obtain ⟨v1, v2⟩ := hs.published h4 (hL.seg e.1 c hk ⟨_, hs.base, h3⟩ _ _ _)
    exact ⟨v1, v2, er, hs.base⟩
  · exact hs

theorem step_put (hL : Laws cfg K D) {s s' : Part} (hl : NMap.Sorted s.pending) (hs : Put cfg K D s) {op : Op}
    (hk : ∀ i, op = .recvInterest i → ∀ key bf t, SyncFields cfg key bf t → AsksFor i.name key → K key)
    (h : step cfg s op = .ok s') : Put cfg K D s' := by
  cases op with
  | addUserNode p =>
    simp only [step, Res.ok.injEq] at h
    subst h
    exact ⟨hs.store, hs.log, hs.park, hs.base.trans (Relation.ReflTransGen.single (.add p))⟩
  | removeUserNode p =>
    simp only [step, Res.bind_eq_ok, Res.ok.injEq] at h
    obtain ⟨b, h1, rfl⟩ := h
    exact ⟨hs.store, hs.log, hs.park, hs.base.trans (Relation.ReflTransGen.single (.remove p trivial h1))⟩
  | publishName p q =>
    simp only [step] at h
    rcases publishName_ok h with ⟨_, rfl⟩ | ⟨cur, b, _, hb, h2, _⟩
    · exact hs
    · have h0 : Put cfg K D { s with base := b, made := s.made ++ [(p, Full.newSeq q cur)] } :=
        ⟨hs.store, hs.log, hs.park, hs.base.trans (Relation.ReflTransGen.single (.update p _ (Full.newSeq_lt _ _) hb))⟩
      refine foldRes_inv (P := fun a : Part => Put cfg K D a) s.pending (fun a e b he h1 h3 => ?_) h0 h2
      exact satisfyOne_put hL h1 (hs.park e.1 e.2 (NMap.find_of_mem hl he)) h3
  | recvInterest i =>
    simp only [step] at h
    split at h
    · exact onHelloInterest_put hL hs h
    · split at h
      · rename_i hh
        rw [List.isPrefixOf_iff_prefix] at hh
        exact onSyncInterest_put hL hs hh (hk i rfl) h
      · cases h; exact hs
  | tick t =>
    simp only [step, Res.ok.injEq] at h
    subst h
    split
    · exact ⟨hs.store, hs.log, hs.park, hs.base⟩
    · exact hs
  | expire n =>
    simp only [step] at h
    split at h
    · rename_i e he
      split at h
      · split at h
        · cases h
          refine ⟨hs.store, hs.log, ?_, hs.base⟩
          intro m x hx
          simp only [NMap.find_erase, NMap.find_set] at hx
          split at hx
          · cases hx
          · split at hx
            · rename_i hm; subst hm; exact hs.park _ e he
            · exact hs.park m x hx
        · cases h; exact hs
      · cases h; exact hs
    · cases h; exact hs
  | fireStore =>
    simp only [step, Res.ok.injEq] at h
    subst h
    exact ⟨fun d hd => hs.store d (fire_mem.mp hd).1, hs.log, hs.park, hs.base⟩

theorem init_put (K : Name → Prop) (D : Data → Prop) : Put cfg K D (init cfg) :=
  ⟨by simp [init, SegPub.empty], by simp [init], fun n e h => (by cases h), Relation.ReflTransGen.refl⟩

theorem run_put (hL : Laws cfg K D) (ops : List Op) : ∀ {s s' : Part}, Parked cfg s → Put cfg K D s →
    (∀ i, Op.recvInterest i ∈ ops → ∀ key bf t, SyncFields cfg key bf t → AsksFor i.name key → K key) →
    run cfg s ops = .ok s' → Put cfg K D s' := by
  induction ops with
  | nil =>
    intro s s' _ hs _ h
    simp only [run, foldRes, Res.ok.injEq] at h
    subst h
    exact hs
  | cons op ops ih =>
    intro s s' hl hs hk h
    simp only [run, foldRes, Res.bind_eq_ok] at h
    obtain ⟨s1, h1, h2⟩ := h
    refine ih (step_parked hl h1) (step_put hL hl.sorted hs ?_ h1) (fun i hi => hk i (List.mem_cons_of_mem _ hi)) h2
    rintro i rfl
    exact hk i (List.mem_cons_self ..)

end Part
end PSync
