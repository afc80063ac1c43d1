import Verif.Model.StateMsg
import Verif.Spec.Valid
import Verif.Model.Iblt
/-!
Round-trip lemmas for big-endian numbers, TLV and names.
-/
namespace PSync

/-! ### Big-endian numbers -/

theorem beBytes_length (w x : Nat) : (beBytes w x).length = w := by
  induction w with
  | zero => simp [beBytes]
  | succ w ih => simp [beBytes, ih]

theorem foldl_be (bs : Bytes) (a : Nat) :
    bs.foldl (fun acc (b : Byte) => acc * 256 + b.toNat) a = a * 256 ^ bs.length + beNat bs := by
  induction bs generalizing a with
  | nil => simp [beNat]
  | cons b bs ih =>
    unfold beNat
    simp only [List.foldl_cons, List.length_cons]
    rw [ih, ih (0 * 256 + b.toNat)]
    simp only [Nat.pow_succ, Nat.zero_mul, Nat.zero_add, Nat.add_mul]
    rw [Nat.mul_assoc a 256, Nat.mul_comm 256, Nat.add_assoc]

theorem beNat_cons (b : Byte) (bs : Bytes) : beNat (b :: bs) = b.toNat * 256 ^ bs.length + beNat bs := by
  conv => lhs; unfold beNat
  rw [List.foldl_cons, foldl_be]
  simp

@[simp] theorem beNat_nil : beNat [] = 0 := by simp [beNat]

theorem beNat_lt (bs : Bytes) : beNat bs < 256 ^ bs.length := by
  induction bs with
  | nil => simp
  | cons b bs ih =>
    rw [beNat_cons, List.length_cons, Nat.pow_succ]
    have hb : b.toNat < 256 := b.isLt
    have : b.toNat * 256 ^ bs.length ≤ 255 * 256 ^ bs.length := Nat.mul_le_mul_right _ (by omega)
    omega

theorem beNat_beBytes (w x : Nat) : beNat (beBytes w x) = x % 256 ^ w := by
  induction w with
  | zero => simp [beBytes, Nat.mod_one]
  | succ w ih =>
    rw [beBytes, beNat_cons, beBytes_length, ih, BitVec.toNat_ofNat]
    have e : x % 256 ^ (w + 1) = x % 256 ^ w + 256 ^ w * (x / 256 ^ w % 256) := by
      rw [Nat.pow_succ, Nat.mod_mul]
    rw [e, Nat.mul_comm, Nat.add_comm]

theorem beBytes_beNat_add (bs : Bytes) (y : Nat) :
    beBytes bs.length (y * 256 ^ bs.length + beNat bs) = bs := by
  induction bs generalizing y with
  | nil => simp [beBytes]
  | cons b bs ih =>
    rw [List.length_cons, beBytes, beNat_cons]
    have hlt := beNat_lt bs
    have e : y * 256 ^ (bs.length + 1) + (b.toNat * 256 ^ bs.length + beNat bs)
        = (y * 256 + b.toNat) * 256 ^ bs.length + beNat bs := by
      rw [Nat.pow_succ, Nat.add_mul, Nat.mul_assoc, Nat.mul_comm 256]; omega
    rw [e, ih]
    congr 1
    have hp : 0 < 256 ^ bs.length := Nat.pow_pos (by omega)
    rw [Nat.mul_comm, Nat.mul_add_div hp, Nat.div_eq_of_lt hlt]
    apply BitVec.eq_of_toNat_eq
    rw [BitVec.toNat_ofNat]
    have hb : b.toNat < 256 := b.isLt
    simp only [show (2:Nat)^8 = 256 from rfl]
    omega

theorem beBytes_beNat {w : Nat} {bs : Bytes} (h : bs.length = w) : beBytes w (beNat bs) = bs := by
  have := beBytes_beNat_add bs 0
  simpa [h] using this

theorem beBytes_inj {w x y : Nat} (hx : x < 256 ^ w) (hy : y < 256 ^ w) (h : beBytes w x = beBytes w y) :
    x = y := by
  have := congrArg beNat h
  rwa [beNat_beBytes, beNat_beBytes, Nat.mod_eq_of_lt hx, Nat.mod_eq_of_lt hy] at this

/-! ### VAR-NUMBER -/

theorem readBE_beBytes (w x : Nat) (r : Bytes) (hx : x < 256 ^ w) :
    readBE w (beBytes w x ++ r) = some (x, r) := by
  unfold readBE
  have hl := beBytes_length w x
  rw [if_neg (by simp [hl])]
  rw [List.take_append_of_le_length (by omega), List.take_of_length_le (by omega),
    List.drop_append_of_le_length (by omega), List.drop_of_length_le (by omega), beNat_beBytes,
    Nat.mod_eq_of_lt hx, List.nil_append]

theorem varNum_ne_nil (n : Nat) : varNum n ≠ [] := by
  unfold varNum
  split
  · simp [beBytes]
  · split
    · simp
    · split <;> simp

theorem readVarNum_varNum (n : Nat) (r : Bytes) (hn : n < 18446744073709551616) :
    readVarNum (varNum n ++ r) = some (n, r) := by
  unfold varNum
  split
  · rename_i h
    have e : beBytes 1 n = [BitVec.ofNat 8 n] := by simp [beBytes]
    rw [e]
    have e2 : (BitVec.ofNat 8 n).toNat = n := by
      rw [BitVec.toNat_ofNat]; exact Nat.mod_eq_of_lt (by omega)
    simp only [List.cons_append, List.nil_append, readVarNum]
    rw [if_pos (by omega), e2]
  · rename_i h
    split
    · rename_i h2
      simp only [List.cons_append, readVarNum]
      rw [if_neg (by decide), if_pos (by decide)]
      exact readBE_beBytes 2 n r (by omega)
    · split
      · simp only [List.cons_append, readVarNum]
        rw [if_neg (by decide), if_neg (by decide), if_pos (by decide)]
        exact readBE_beBytes 4 n r (by omega)
      · simp only [List.cons_append, readVarNum]
        rw [if_neg (by decide), if_neg (by decide), if_neg (by decide)]
        exact readBE_beBytes 8 n r (by omega)

theorem readType_varNum (n : Nat) (r : Bytes) (h0 : n ≠ 0) (hn : n < 4294967296) :
    readType (varNum n ++ r) = some (n, r) := by
  unfold readType
  rw [readVarNum_varNum n r (by omega)]
  simp only
  rw [if_neg (by omega)]

/-! ### Blocks -/

theorem readTlv_encode (b : Tlv) (r : Bytes) (hb : b.Valid) : readTlv (b.encode ++ r) = some (b, r) := by
  unfold readTlv Tlv.encode
  rw [List.append_assoc, readType_varNum _ _ hb.1 hb.2.1]
  simp only
  rw [List.append_assoc, readVarNum_varNum _ _ hb.2.2]
  simp only
  rw [if_neg (by simp), List.take_append_of_le_length (by omega), List.take_of_length_le (by omega),
    List.drop_append_of_le_length (by omega), List.drop_of_length_le (by omega), List.nil_append]

theorem Tlv.encode_ne_nil (b : Tlv) : b.encode ≠ [] := by
  unfold Tlv.encode
  intro h
  exact varNum_ne_nil _ (List.append_eq_nil_iff.mp h).1

theorem parseElemsAux_flatMap (es : List Tlv) (hes : ∀ e ∈ es, e.Valid) : ∀ n, es.length ≤ n →
    parseElemsAux n (es.flatMap Tlv.encode) = some es := by
  induction es with
  | nil => intro n _; cases n <;> simp [parseElemsAux]
  | cons e es ih =>
    intro n hn
    obtain ⟨m, rfl⟩ : ∃ m, n = m + 1 := ⟨n - 1, by simp at hn; omega⟩
    rw [List.flatMap_cons]
    have hne := e.encode_ne_nil
    have hrd := readTlv_encode e (es.flatMap Tlv.encode) (hes e (by simp))
    match hc : e.encode ++ es.flatMap Tlv.encode with
    | [] => exact absurd (List.append_eq_nil_iff.mp hc).1 hne
    | x :: xs =>
      rw [hc] at hrd
      simp only [parseElemsAux]
      rw [hrd]
      simp only
      rw [ih (fun e' he' => hes e' (by simp [he'])) m (by simp at hn; omega)]

theorem flatMap_encode_length (es : List Tlv) : es.length ≤ (es.flatMap Tlv.encode).length := by
  induction es with
  | nil => simp
  | cons e es ih =>
    rw [List.flatMap_cons, List.length_append, List.length_cons]
    have : 0 < e.encode.length := List.length_pos_iff.mpr e.encode_ne_nil
    omega

theorem parseElems_flatMap (es : List Tlv) (hes : ∀ e ∈ es, e.Valid) :
    parseElems (es.flatMap Tlv.encode) = some es :=
  parseElemsAux_flatMap es hes _ (flatMap_encode_length es)

theorem readBlock_encode (b : Tlv) (hb : b.Valid) : readBlock b.encode = some b := by
  unfold readBlock
  have := readTlv_encode b [] hb
  rw [List.append_nil] at this
  rw [this]

/-! ### Names -/

theorem ofValue_wireValue (n : Name) (hn : n.Valid) : Name.ofValue n.wireValue = some n :=
  parseElems_flatMap n hn

theorem decodeNameElems_map (ns : List Name) (h : ∀ n ∈ ns, n.Valid) :
    decodeNameElems (ns.map Name.toTlv) = some ns := by
  induction ns with
  | nil => simp [decodeNameElems]
  | cons n ns ih =>
    simp only [List.map_cons, decodeNameElems, decodeNameElem, Name.toTlv, if_true]
    rw [ofValue_wireValue n (h n (by simp))]
    simp only
    have := ih (fun m hm => h m (by simp [hm]))
    rw [this]

theorem wireDecode_encodeNames (ns : List Name) (h : ∀ n ∈ ns, n.Valid)
    (hl : (encodeNames ns).length < 18446744073709551616) :
    StateMsg.wireDecode (encodeNames ns) = .ok ⟨ns, some (encodeNames ns)⟩ := by
  have hfm : ns.flatMap (fun n => n.toTlv.encode) = (ns.map Name.toTlv).flatMap Tlv.encode := by
    rw [List.flatMap_map]
  have hlen : (ns.flatMap (fun n => n.toTlv.encode)).length < 18446744073709551616 := by
    refine Nat.lt_of_le_of_lt ?_ hl
    unfold encodeNames Tlv.encode
    simp only [List.length_append]
    omega
  have hvb : Tlv.Valid ⟨TlvType.psyncContent, ns.flatMap (fun n => n.toTlv.encode)⟩ :=
    ⟨by simp [TlvType.psyncContent], by simp [TlvType.psyncContent], hlen⟩
  have hel : ∀ e ∈ ns.map Name.toTlv, e.Valid := by
    intro e he
    refine ⟨?_, ?_, ?_⟩
    · obtain ⟨n, _, rfl⟩ := List.mem_map.mp he; simp [Name.toTlv, TlvType.name]
    · obtain ⟨n, _, rfl⟩ := List.mem_map.mp he; simp [Name.toTlv, TlvType.name]
    · refine Nat.lt_of_le_of_lt ?_ hlen
      rw [hfm]
      obtain ⟨s, t, hst⟩ := List.append_of_mem he
      rw [hst]
      simp only [List.flatMap_append, List.flatMap_cons, List.length_append]
      unfold Tlv.encode
      simp only [List.length_append]
      omega
  unfold StateMsg.wireDecode
  have hb := readBlock_encode _ hvb
  unfold encodeNames
  rw [hb]
  simp only [ne_eq, not_true_eq_false, if_false]
  rw [hfm, parseElems_flatMap _ hel]
  simp only
  rw [decodeNameElems_map ns h]

/-! ### NonNegativeInteger components -/

theorem readNni_nniBytes (n : Nat) (hn : n < 18446744073709551616) : readNni (nniBytes n) = some n := by
  unfold readNni nniBytes
  split
  · simp [beBytes_length, beNat_beBytes]; omega
  · split
    · simp [beBytes_length, beNat_beBytes]; omega
    · split
      · simp [beBytes_length, beNat_beBytes]; omega
      · simp [beBytes_length, beNat_beBytes]; omega

theorem nniBytes_inj {x y : Nat} (hx : x < 18446744073709551616) (hy : y < 18446744073709551616)
    (h : nniBytes x = nniBytes y) : x = y := by
  have h1 := readNni_nniBytes x hx
  rw [h, readNni_nniBytes y hy] at h1
  exact (Option.some.inj h1).symm

theorem nniBytes_length (n : Nat) : (nniBytes n).length ≤ 8 := by
  unfold nniBytes
  split
  · simp [beBytes_length]
  · split
    · simp [beBytes_length]
    · split <;> simp [beBytes_length]

theorem appendNumber_inj {p q : Name} {x y : Nat} (hx : x < 18446744073709551616)
    (hy : y < 18446744073709551616) (h : Name.appendNumber p x = Name.appendNumber q y) : p = q ∧ x = y := by
  unfold Name.appendNumber at h
  have h1 := List.append_inj' h (by simp)
  refine ⟨h1.1, ?_⟩
  have h2 := h1.2
  simp at h2
  exact nniBytes_inj hx hy h2

theorem appendNumber_valid {p : Name} (hp : p.Valid) (x : Nat) : (Name.appendNumber p x).Valid := by
  intro c hc
  unfold Name.appendNumber at hc
  rcases List.mem_append.mp hc with h | h
  · exact hp c h
  · simp at h
    subst h
    refine ⟨by simp [TlvType.generic], by simp [TlvType.generic], ?_⟩
    have := nniBytes_length x
    simp only
    omega

/-! ### IBF wire form -/

theorem natToI32_i32ToNat {x : Int} (h : inI32 x = true) : natToI32 (i32ToNat x) = x := by
  unfold inI32 at h
  simp at h
  unfold natToI32 i32ToNat
  split <;> omega

theorem i32ToNat_lt (x : Int) : i32ToNat x < 256 ^ 4 := by unfold i32ToNat; omega

theorem i32ToNat_natToI32 {n : Nat} (h : n < 4294967296) : i32ToNat (natToI32 n) = n := by
  unfold natToI32 i32ToNat
  split <;> omega

theorem natToI32_inI32 {n : Nat} (h : n < 4294967296) : inI32 (natToI32 n) = true := by
  unfold inI32 natToI32
  simp
  split <;> omega

theorem Cell.encode_length (c : Cell) : c.encode.length = 12 := by
  simp [Cell.encode, beBytes_length]

theorem Table.encode_length (t : Table) : t.encode.length = 12 * t.length := by
  unfold Table.encode
  induction t with
  | nil => simp
  | cons c t ih => rw [List.flatMap_cons, List.length_append, ih, Cell.encode_length, List.length_cons]; omega

theorem Table.decode_encode (t : Table) (h : ∀ c ∈ t, inI32 c.count = true) :
    Table.decode t.length t.encode = t := by
  induction t with
  | nil => simp [Table.decode]
  | cons c t ih =>
    have ih' := ih (fun c' hc' => h c' (by simp [hc']))
    unfold Table.encode at ih' ⊢
    rw [List.flatMap_cons, List.length_cons, Table.decode]
    have hA := beBytes_length 4 (i32ToNat c.count)
    have hB := beBytes_length 4 c.keySum.toNat
    have hC := beBytes_length 4 c.keyCheck.toNat
    have hsum : c.keySum.toNat < 256 ^ 4 := c.keySum.isLt
    have hchk : c.keyCheck.toNat < 256 ^ 4 := c.keyCheck.isLt
    have d12 : (c.encode ++ t.flatMap Cell.encode).drop 12 = t.flatMap Cell.encode := by
      rw [List.drop_append_of_le_length (by rw [Cell.encode_length]),
        List.drop_of_length_le (by rw [Cell.encode_length]), List.nil_append]
    rw [d12, ih']
    congr 1
    have e1 : (c.encode ++ t.flatMap Cell.encode).take 4 = beBytes 4 (i32ToNat c.count) := by
      unfold Cell.encode
      rw [List.append_assoc, List.take_append_of_le_length (by omega), List.take_of_length_le (by omega)]
    have d4 : (c.encode ++ t.flatMap Cell.encode).drop 4
        = beBytes 4 c.keySum.toNat ++ (beBytes 4 c.keyCheck.toNat ++ t.flatMap Cell.encode) := by
      unfold Cell.encode
      rw [List.append_assoc, List.drop_append_of_le_length (by omega), List.drop_of_length_le (by omega),
        List.nil_append, List.append_assoc]
    have d8 : (c.encode ++ t.flatMap Cell.encode).drop 8
        = beBytes 4 c.keyCheck.toNat ++ t.flatMap Cell.encode := by
      rw [show 8 = 4 + 4 from rfl, ← List.drop_drop, d4, List.drop_append_of_le_length (by omega),
        List.drop_of_length_le (by omega), List.nil_append]
    rw [e1, d4, d8, List.take_append_of_le_length (by omega), List.take_of_length_le (by omega),
      List.take_append_of_le_length (by omega), List.take_of_length_le (by omega),
      beNat_beBytes, beNat_beBytes, beNat_beBytes, Nat.mod_eq_of_lt (i32ToNat_lt _), Nat.mod_eq_of_lt hsum,
      Nat.mod_eq_of_lt hchk, natToI32_i32ToNat (h c (by simp)), BitVec.ofNat_toNat, BitVec.ofNat_toNat]
    simp

theorem Table.decode_length (n : Nat) (bs : Bytes) : (Table.decode n bs).length = n := by
  induction n generalizing bs with
  | zero => simp [Table.decode]
  | succ n ih => simp [Table.decode, ih]

theorem beNat_lt4 (bs : Bytes) (h : bs.length ≤ 4) : beNat bs < 4294967296 := by
  have h1 := beNat_lt bs
  have h2 : 256 ^ bs.length ≤ 256 ^ 4 := Nat.pow_le_pow_right (by omega) h
  omega

theorem Table.decode_inI32 (n : Nat) (bs : Bytes) : ∀ c ∈ Table.decode n bs, inI32 c.count = true := by
  induction n generalizing bs with
  | zero => simp [Table.decode]
  | succ n ih =>
    intro c hc
    simp only [Table.decode, List.mem_cons] at hc
    rcases hc with rfl | hc
    · exact natToI32_inI32 (beNat_lt4 _ (by simp))
    · exact ih _ c hc

theorem Table.encode_decode (n : Nat) (bs : Bytes) (h : bs.length = 12 * n) :
    (Table.decode n bs).encode = bs := by
  induction n generalizing bs with
  | zero => simp [Table.decode, Table.encode]; exact List.length_eq_zero_iff.mp h
  | succ n ih =>
    have hd : (bs.drop 12).length = 12 * n := by simp; omega
    have := ih (bs.drop 12) hd
    unfold Table.encode at this ⊢
    rw [Table.decode, List.flatMap_cons, this]
    unfold Cell.encode
    simp only
    have l1 : (bs.take 4).length = 4 := by simp; omega
    have l2 : ((bs.drop 4).take 4).length = 4 := by simp; omega
    have l3 : ((bs.drop 8).take 4).length = 4 := by simp; omega
    have n1 := beNat_lt4 _ (Nat.le_of_eq l1)
    have n2 := beNat_lt4 _ (Nat.le_of_eq l2)
    have n3 := beNat_lt4 _ (Nat.le_of_eq l3)
    rw [i32ToNat_natToI32 n1, BitVec.toNat_ofNat, BitVec.toNat_ofNat,
      Nat.mod_eq_of_lt (by omega), Nat.mod_eq_of_lt (by omega),
      beBytes_beNat l1, beBytes_beNat l2, beBytes_beNat l3, List.append_assoc, List.append_assoc]
    have d8 : bs.drop 8 = (bs.drop 4).drop 4 := by rw [List.drop_drop]
    have d12 : bs.drop 12 = (bs.drop 8).drop 4 := by rw [List.drop_drop]
    rw [d12, List.take_append_drop, d8, List.take_append_drop, List.take_append_drop]

theorem Table.encode_inj {l r : Table} (hl : ∀ c ∈ l, inI32 c.count = true) (hr : ∀ c ∈ r, inI32 c.count = true)
    (h : l.encode = r.encode) : l = r := by
  have e := congrArg List.length h
  rw [Table.encode_length, Table.encode_length] at e
  rw [← Table.decode_encode l hl, ← Table.decode_encode r hr, h, show l.length = r.length by omega]

end PSync
