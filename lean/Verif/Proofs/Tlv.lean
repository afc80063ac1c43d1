import Verif.Spec.Tlv
import Verif.Proofs.Wire
/-!
The parser of `Model/Tlv.lean` accepts exactly the grammar of `Spec/Tlv.lean`.
-/
namespace PSync
open Spec

theorem beValue_eq (bs : Bytes) : beValue bs = beNat bs := by
  induction bs with
  | nil => simp [beValue]
  | cons b bs ih => rw [beValue, beNat_cons, ih]

theorem isVarNum_ne_nil {n : Nat} {bs : Bytes} (h : IsVarNum n bs) : bs ≠ [] := by cases h <;> simp

theorem readBE_of {w : Nat} {bs r : Bytes} (h : bs.length = w) : readBE w (bs ++ r) = some (beNat bs, r) := by
  unfold readBE
  rw [if_neg (by simp; omega), List.take_append_of_le_length (by omega), List.take_of_length_le (by omega),
    List.drop_append_of_le_length (by omega), List.drop_of_length_le (by omega), List.nil_append]

theorem readBE_some {w n : Nat} {bs r : Bytes} (h : readBE w bs = some (n, r)) :
    ∃ b, b.length = w ∧ n = beNat b ∧ bs = b ++ r := by
  unfold readBE at h
  split at h
  · simp at h
  · simp only [Option.some.injEq, Prod.mk.injEq] at h
    exact ⟨bs.take w, by simp; omega, h.1.symm, by rw [← h.2, List.take_append_drop]⟩

theorem readVarNum_iff {n : Nat} {bs r : Bytes} :
    readVarNum bs = some (n, r) ↔ ∃ b, IsVarNum n b ∧ bs = b ++ r := by
  constructor
  · intro h
    cases bs with
    | nil => simp [readVarNum] at h
    | cons b bs =>
      simp only [readVarNum] at h
      split at h
      · rename_i hb
        simp only [Option.some.injEq, Prod.mk.injEq] at h
        obtain ⟨rfl, rfl⟩ := h
        exact ⟨[b], .one b hb, rfl⟩
      · split at h
        · rename_i hb
          obtain ⟨b', h1, h2, h3⟩ := readBE_some h
          have e : b = 253#8 := BitVec.eq_of_toNat_eq hb
          subst e; subst h3
          exact ⟨253#8 :: b', by rw [h2, ← beValue_eq]; exact .two b' h1, rfl⟩
        · split at h
          · rename_i hb
            obtain ⟨b', h1, h2, h3⟩ := readBE_some h
            have e : b = 254#8 := BitVec.eq_of_toNat_eq hb
            subst e; subst h3
            exact ⟨254#8 :: b', by rw [h2, ← beValue_eq]; exact .four b' h1, rfl⟩
          · rename_i h1 h2 h3
            obtain ⟨b', h1', h2', h3'⟩ := readBE_some h
            have e : b = 255#8 := by
              apply BitVec.eq_of_toNat_eq
              have := b.isLt
              have e255 : (255#8).toNat = 255 := rfl
              omega
            subst e; subst h3'
            exact ⟨255#8 :: b', by rw [h2', ← beValue_eq]; exact .eight b' h1', rfl⟩
  · rintro ⟨b, hb, rfl⟩
    cases hb with
    | one b hb => simp [readVarNum, hb]
    | two b hb =>
      simp only [List.cons_append, readVarNum]
      rw [if_neg (by decide), if_pos (by decide), readBE_of hb, beValue_eq]
    | four b hb =>
      simp only [List.cons_append, readVarNum]
      rw [if_neg (by decide), if_neg (by decide), if_pos (by decide), readBE_of hb, beValue_eq]
    | eight b hb =>
      simp only [List.cons_append, readVarNum]
      rw [if_neg (by decide), if_neg (by decide), if_neg (by decide), readBE_of hb, beValue_eq]

theorem readTlv_iff {e : Tlv} {bs r : Bytes} :
    readTlv bs = some (e, r) ↔ ∃ b, IsElem e b ∧ bs = b ++ r := by
  constructor
  · intro h
    unfold readTlv readType at h
    cases h1 : readVarNum bs with
    | none => rw [h1] at h; simp at h
    | some p =>
      obtain ⟨t, r1⟩ := p
      rw [h1] at h
      simp only at h
      obtain ⟨tb, ht, hbs⟩ := readVarNum_iff.mp h1
      by_cases hbad : t = 0 ∨ t > 0xFFFFFFFF
      · rw [if_pos hbad] at h; simp at h
      · rw [if_neg hbad] at h
        simp only at h
        cases h2 : readVarNum r1 with
        | none => rw [h2] at h; simp at h
        | some q =>
          obtain ⟨len, r2⟩ := q
          rw [h2] at h
          simp only at h
          obtain ⟨lb, hlb, hr1⟩ := readVarNum_iff.mp h2
          split at h
          · simp at h
          · rename_i hlen
            simp only [Option.some.injEq, Prod.mk.injEq] at h
            obtain ⟨rfl, rfl⟩ := h
            refine ⟨tb ++ (lb ++ r2.take len), ⟨tb, lb, ht, ?_, by simp only; omega, by simp only; omega, rfl⟩, ?_⟩
            · have : (r2.take len).length = len := by simp; omega
              simp only [this]; exact hlb
            · rw [hbs, hr1, List.append_assoc, List.append_assoc, List.take_append_drop]
  · rintro ⟨b, ⟨tb, lb, ht, hl, h0, h32, rfl⟩, rfl⟩
    unfold readTlv readType
    have e1 : readVarNum (tb ++ (lb ++ e.value) ++ r) = some (e.type, lb ++ e.value ++ r) :=
      readVarNum_iff.mpr ⟨tb, ht, by rw [List.append_assoc]⟩
    rw [e1]
    simp only
    rw [if_neg (by omega)]
    simp only
    have e2 : readVarNum (lb ++ e.value ++ r) = some (e.value.length, e.value ++ r) :=
      readVarNum_iff.mpr ⟨lb, hl, by rw [List.append_assoc]⟩
    rw [e2]
    simp only
    rw [if_neg (by simp), List.take_append_of_le_length (by omega), List.take_of_length_le (by omega),
      List.drop_append_of_le_length (by omega), List.drop_of_length_le (by omega), List.nil_append]

theorem isElem_ne_nil {e : Tlv} {b : Bytes} (h : IsElem e b) : b ≠ [] := by
  obtain ⟨tb, lb, ht, _, _, _, rfl⟩ := h
  intro h0
  exact isVarNum_ne_nil ht (List.append_eq_nil_iff.mp h0).1

theorem parseElemsAux_sound : ∀ (n : Nat) (bs : Bytes) (es : List Tlv), parseElemsAux n bs = some es → IsSeq es bs
  | _, [], es, h => by
    cases es with
    | nil => exact .nil
    | cons e es => cases ‹Nat› <;> simp [parseElemsAux] at h
  | 0, b :: bs, es, h => by simp [parseElemsAux] at h
  | n + 1, b :: bs, es, h => by
    simp only [parseElemsAux] at h
    cases h1 : readTlv (b :: bs) with
    | none => rw [h1] at h; simp at h
    | some p =>
      obtain ⟨e, r⟩ := p
      rw [h1] at h
      simp only at h
      cases h2 : parseElemsAux n r with
      | none => rw [h2] at h; simp at h
      | some es' =>
        rw [h2] at h
        simp only [Option.some.injEq] at h
        obtain ⟨b1, hb1, hbs⟩ := readTlv_iff.mp h1
        rw [← h, hbs]
        exact .cons e es' b1 r hb1 (parseElemsAux_sound n r es' h2)

theorem parseElemsAux_complete {es : List Tlv} {bs : Bytes} (h : IsSeq es bs) : ∀ n, bs.length ≤ n →
    parseElemsAux n bs = some es := by
  induction h with
  | nil => intro n _; cases n <;> simp [parseElemsAux]
  | cons e es b1 b2 h1 _ ih =>
    intro n hn
    have hne := isElem_ne_nil h1
    have hpos : 0 < b1.length := List.length_pos_iff.mpr hne
    rw [List.length_append] at hn
    obtain ⟨m, rfl⟩ : ∃ m, n = m + 1 := ⟨n - 1, by omega⟩
    have hrd : readTlv (b1 ++ b2) = some (e, b2) := readTlv_iff.mpr ⟨b1, h1, rfl⟩
    match hc : b1 ++ b2 with
    | [] => exact absurd (List.append_eq_nil_iff.mp hc).1 hne
    | x :: xs =>
      rw [hc] at hrd
      simp only [parseElemsAux]
      rw [hrd]
      simp only
      rw [ih m (by omega)]

theorem parseElems_iff {es : List Tlv} {bs : Bytes} : parseElems bs = some es ↔ IsSeq es bs :=
  ⟨parseElemsAux_sound _ _ _, fun h => parseElemsAux_complete h _ (Nat.le_refl _)⟩

theorem readBlock_iff {e : Tlv} {bs : Bytes} : readBlock bs = some e ↔ IsElem e bs := by
  unfold readBlock
  constructor
  · intro h
    split at h
    · rename_i b hb
      simp only [Option.some.injEq] at h
      subst h
      obtain ⟨b1, h1, h2⟩ := readTlv_iff.mp hb
      rw [List.append_nil] at h2
      rw [h2]; exact h1
    · simp at h
  · intro h
    have : readTlv bs = some (e, []) := readTlv_iff.mpr ⟨bs, h, by simp⟩
    rw [this]

theorem decodeNameElems_iff {ns : List Name} {bs : Bytes} :
    (∃ es, IsSeq es bs ∧ decodeNameElems es = some ns) ↔ IsNames ns bs := by
  constructor
  · rintro ⟨es, hseq, hdec⟩
    induction hseq generalizing ns with
    | nil => simp [decodeNameElems] at hdec; subst hdec; exact .nil
    | cons e es b1 b2 h1 _ ih =>
      simp only [decodeNameElems, decodeNameElem] at hdec
      by_cases ht : e.type = TlvType.name
      · rw [if_pos ht] at hdec
        cases h2 : Name.ofValue e.value with
        | none => rw [h2] at hdec; simp at hdec
        | some n =>
          rw [h2] at hdec
          simp only at hdec
          cases h3 : decodeNameElems es with
          | none => rw [h3] at hdec; simp at hdec
          | some ns' =>
            rw [h3] at hdec
            simp only [Option.some.injEq] at hdec
            rw [← hdec]
            refine .cons n ns' e.value b1 b2 (parseElems_iff.mp h2) ?_ (ih h3)
            have : e = ⟨7, e.value⟩ := by
              cases e; simp only [TlvType.name] at ht; subst ht; rfl
            rw [← this]; exact h1
      · rw [if_neg ht] at hdec; simp at hdec
  · intro h
    induction h with
    | nil => exact ⟨[], .nil, rfl⟩
    | cons n ns v b1 b2 h1 h2 _ ih =>
      obtain ⟨es, hes, hd⟩ := ih
      refine ⟨⟨7, v⟩ :: es, .cons _ _ _ _ h2 hes, ?_⟩
      simp only [decodeNameElems, decodeNameElem, TlvType.name, if_true]
      rw [show Name.ofValue v = some n from parseElems_iff.mpr h1]
      simp only
      rw [hd]

theorem isSeq_unique {es es' : List Tlv} {bs : Bytes} (h : IsSeq es bs) (h' : IsSeq es' bs) : es = es' := by
  have h1 := parseElems_iff.mpr h
  rw [parseElems_iff.mpr h'] at h1
  exact (Option.some.inj h1).symm

theorem wireDecode_iff {raw : Bytes} {s : StateMsg} :
    StateMsg.wireDecode raw = .ok s ↔ IsContent raw s.content ∧ s.wire = some raw := by
  unfold StateMsg.wireDecode
  constructor
  · intro h
    cases h1 : readBlock raw with
    | none => rw [h1] at h; simp at h
    | some blk =>
      rw [h1] at h
      simp only at h
      by_cases ht : blk.type = TlvType.psyncContent
      · rw [if_neg (not_not_intro ht)] at h
        cases h2 : parseElems blk.value with
        | none => rw [h2] at h; simp at h
        | some es =>
          rw [h2] at h
          simp only at h
          cases h3 : decodeNameElems es with
          | none => rw [h3] at h; simp at h
          | some ns =>
            rw [h3] at h
            simp only [Res.ok.injEq] at h
            subst h
            refine ⟨⟨blk.value, ?_, decodeNameElems_iff.mp ⟨es, parseElems_iff.mp h2, h3⟩⟩, rfl⟩
            have : blk = ⟨128, blk.value⟩ := by
              cases blk; simp only [TlvType.psyncContent] at ht; subst ht; rfl
            rw [← this]
            exact readBlock_iff.mp h1
      · rw [if_pos ht] at h; simp at h
  · rintro ⟨⟨v, h1, h2⟩, h3⟩
    rw [readBlock_iff.mpr h1]
    simp only [TlvType.psyncContent, ne_eq, not_true_eq_false, if_false]
    obtain ⟨es, hes, hd⟩ := decodeNameElems_iff.mpr h2
    rw [parseElems_iff.mpr hes]
    simp only
    rw [hd]
    simp only [Res.ok.injEq]
    cases s
    simp only at h3
    rw [h3]

theorem wireDecode_outcome (raw : Bytes) :
    (∃ s, StateMsg.wireDecode raw = .ok s) ∨ StateMsg.wireDecode raw = .throw .tlv := by
  unfold StateMsg.wireDecode
  split
  · exact Or.inr rfl
  · split
    · exact Or.inr rfl
    · split
      · exact Or.inr rfl
      · split
        · exact Or.inr rfl
        · exact Or.inl ⟨_, rfl⟩

end PSync
