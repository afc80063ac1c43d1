import Verif.Proofs.Tlv
/-!
Properties C11–C13: sync/hello content and sequence number components.
-/
namespace PSync
open Spec

/-! ### C11 -/

/-- The cached wire, if any, stands for the current content. -/
def WireOk (s : StateMsg) : Prop := ∀ w, s.wire = some w → StateMsg.wireDecode w = .ok ⟨s.content, some w⟩

theorem apply_content (s : StateMsg) (o : StOp) : (o.apply s).content = s.content ++ added [o] := by
  cases o with
  | add n => rfl
  | encode =>
    simp only [StOp.apply, StateMsg.wireEncode, added, List.append_nil]
    split <;> rfl

theorem added_cons (o : StOp) (ops : List StOp) : added (o :: ops) = added [o] ++ added ops := by
  cases o <;> rfl

theorem added_snoc (ops : List StOp) : added (ops ++ [.encode]) = added ops := by
  induction ops with
  | nil => rfl
  | cons o ops ih => cases o <;> simp [added, ih]

theorem run_content (ops : List StOp) : ∀ s : StateMsg,
    (ops.foldl StOp.apply s).content = s.content ++ added ops := by
  induction ops with
  | nil => intro s; simp [added]
  | cons o ops ih => intro s; rw [List.foldl_cons, ih, apply_content, added_cons o ops, List.append_assoc]

theorem encode_wireOk {s : StateMsg} (hw : WireOk s) (hv : ∀ n ∈ s.content, n.Valid)
    (hl : (encodeNames s.content).length < 18446744073709551616) : WireOk s.wireEncode.2 := by
  unfold StateMsg.wireEncode
  split
  · exact hw
  · intro w h
    simp only [Option.some.injEq] at h
    subst h
    exact wireDecode_encodeNames _ hv hl

theorem flatMap_prefix_length {α β : Type} (f : α → List β) (l m : List α) :
    (l.flatMap f).length ≤ ((l ++ m).flatMap f).length := by
  rw [List.flatMap_append, List.length_append]; omega

theorem run_wireOk (ops : List StOp) : ∀ s : StateMsg, WireOk s →
    (∀ n ∈ s.content ++ added ops, n.Valid) →
    ((s.content ++ added ops).flatMap (fun n => n.toTlv.encode)).length < 18446744073709551598 →
    WireOk (ops.foldl StOp.apply s) := by
  induction ops with
  | nil => intro s hs _ _; exact hs
  | cons o ops ih =>
    intro s hs hv hl
    rw [List.foldl_cons]
    have hc := apply_content s o
    rw [added_cons, ← List.append_assoc] at hv hl
    apply ih
    · cases o with
      | add n => intro w hw; simp [StOp.apply, StateMsg.addContent] at hw
      | encode =>
        refine encode_wireOk hs (fun n hn => hv n (by simp [hn])) ?_
        have h1 : (s.content.flatMap (fun n => n.toTlv.encode)).length < 18446744073709551598 :=
          Nat.lt_of_le_of_lt
            (by rw [List.append_assoc]; exact flatMap_prefix_length _ _ _) hl
        unfold encodeNames
        generalize hV : s.content.flatMap (fun n => n.toTlv.encode) = V at h1 ⊢
        unfold Tlv.encode
        simp only [List.length_append]
        have v1 : (varNum TlvType.psyncContent).length = 1 := by decide
        have v2 : ∀ n, (varNum n).length ≤ 9 := by
          intro n; unfold varNum
          split
          · simp [beBytes_length]
          · split
            · simp [beBytes_length]
            · split <;> simp [beBytes_length]
        have := v2 V.length
        omega
    · rw [hc]; exact hv
    · rw [hc]; exact hl

/-- C11: whatever interleaving of `addContent` and `wireEncode` is applied to a new `State`, or to a
`State` decoded from the network, decoding its wire encoding gives exactly the names it started with
followed by the added ones, in order. (The size bound is the largest TLV length.) -/
theorem c11_round_trip (s0 : StateMsg)
    (h0 : s0 = StateMsg.empty ∨ ∃ raw, StateMsg.wireDecode raw = .ok s0) (ops : List StOp)
    (hv : ∀ n ∈ s0.content ++ added ops, n.Valid)
    (hl : ((s0.content ++ added ops).flatMap (fun n => n.toTlv.encode)).length < 18446744073709551598) :
    ∃ w, StateMsg.wireDecode (ops.foldl StOp.apply s0).wireEncode.1 = .ok ⟨s0.content ++ added ops, some w⟩ := by
  have hw0 : WireOk s0 := by
    rcases h0 with rfl | ⟨raw, h⟩
    · intro w hw; simp [StateMsg.empty] at hw
    · intro w hw
      have h2 := (wireDecode_iff.mp h).2
      rw [h2, Option.some.injEq] at hw
      subst hw
      rw [h]
      cases s0
      simp only at h2
      rw [h2]
  have hw := run_wireOk (ops ++ [.encode]) s0 hw0
    (by rw [added_snoc]; exact hv) (by rw [added_snoc]; exact hl)
  rw [List.foldl_append] at hw
  simp only [List.foldl_cons, List.foldl_nil, StOp.apply] at hw
  have hc := run_content ops s0
  generalize ops.foldl StOp.apply s0 = s at hw hc
  refine ⟨s.wireEncode.1, ?_⟩
  have e : s.wireEncode.2.wire = some s.wireEncode.1 := by
    unfold StateMsg.wireEncode
    split
    · rename_i h; exact h
    · rfl
  have e2 : s.wireEncode.2.content = s.content := by
    unfold StateMsg.wireEncode
    split <;> rfl
  have := hw _ e
  rw [this, e2, hc]

/-- Non-vacuity for C11: three names, one of them empty, encoded once in between. -/
example : StateMsg.wireDecode (([.add [⟨8, [97]⟩], .encode, .add [], .add [⟨8, [98, 0]⟩, ⟨8, [1]⟩]] : List StOp).foldl
      StOp.apply StateMsg.empty).wireEncode.1
    = .ok ⟨[[⟨8, [97]⟩], [], [⟨8, [98, 0]⟩, ⟨8, [1]⟩]],
        some [128, 16, 7, 3, 8, 1, 97, 7, 0, 7, 7, 8, 2, 98, 0, 8, 1, 1]⟩ := by decide +kernel

/-! ### C12 -/

/-- C12: `wireDecode` accepts exactly the byte strings generated by the grammar of PSyncContent, and
returns exactly the names in it; everything else raises `tlv::Error`, never undefined behaviour. -/
theorem c12_decode_exact (raw : Bytes) :
    (∀ s, StateMsg.wireDecode raw = .ok s ↔ IsContent raw s.content ∧ s.wire = some raw) ∧
    ((¬ ∃ ns, IsContent raw ns) ↔ StateMsg.wireDecode raw = .throw .tlv) := by
  refine ⟨fun s => wireDecode_iff, ?_⟩
  constructor
  · intro h
    rcases wireDecode_outcome raw with ⟨s, hs⟩ | h'
    · exact absurd ⟨_, (wireDecode_iff.mp hs).1⟩ h
    · exact h'
  · rintro h ⟨ns, hns⟩
    have := wireDecode_iff (s := ⟨ns, some raw⟩).mpr ⟨hns, rfl⟩
    rw [h] at this
    simp at this

/-- C12: the names of a content block are unique, no byte string is ambiguous. -/
theorem c12_unambiguous (raw : Bytes) (ns ns' : List Name) (h : IsContent raw ns) (h' : IsContent raw ns') :
    ns = ns' := by
  have h1 := (wireDecode_iff (s := ⟨ns, some raw⟩)).mpr ⟨h, rfl⟩
  have h2 := (wireDecode_iff (s := ⟨ns', some raw⟩)).mpr ⟨h', rfl⟩
  rw [h1] at h2
  simp at h2
  exact h2

/-- Non-vacuity for C12: accepted (also with a non-minimal length), wrong type, truncated, trailing bytes. -/
example : StateMsg.wireDecode [128, 2, 7, 0] = .ok ⟨[[]], some [128, 2, 7, 0]⟩ := by decide +kernel
example : StateMsg.wireDecode [128, 253, 0, 2, 7, 0] = .ok ⟨[[]], some [128, 253, 0, 2, 7, 0]⟩ := by decide +kernel
example : StateMsg.wireDecode [128, 2, 8, 0] = .throw .tlv := by decide +kernel
example : StateMsg.wireDecode [129, 2, 7, 0] = .throw .tlv := by decide +kernel
example : StateMsg.wireDecode [128, 2, 7] = .throw .tlv := by decide +kernel
example : StateMsg.wireDecode [128, 2, 7, 0, 0] = .throw .tlv := by decide +kernel

/-! ### C13 -/

theorem getFromEnd_snoc (p : Name) (c : Component) : Name.getFromEnd (p ++ [c]) 1 = .ok c := by
  have e : ((List.length (p ++ [c]) : Nat) : Int) - (1 : Nat) = (p.length : Int) := by simp
  unfold Name.getFromEnd
  simp only [e]
  have h1 : ¬ ((p.length : Int) < 0) := by omega
  have h2 : (0 : Int) ≤ p.length := by omega
  simp [h1, h2]

/-- C13: reading back the appended number gives the number, for every uint64. -/
theorem c13_read_back (p : Name) (x : Nat) (hx : x < 2 ^ 64) :
    (Res.bind (Name.getFromEnd (p.appendNumber x) 1) Component.toNumber) = .ok x ∧
    (p.appendNumber x).dropLast 1 = p := by
  constructor
  · unfold Name.appendNumber
    rw [getFromEnd_snoc, Res.ok_bind, Component.toNumber, readNni_nniBytes x (by omega)]
    rfl
  · unfold Name.dropLast Name.appendNumber
    simp

/-- C13: different (prefix, seq) pairs give different names, also on the wire. -/
theorem c13_injective (p q : Name) (x y : Nat) (hx : x < 2 ^ 64) (hy : y < 2 ^ 64)
    (h : p.appendNumber x = q.appendNumber y) : p = q ∧ x = y :=
  appendNumber_inj (by omega) (by omega) h

/-- C13: the wire form distinguishes them too. -/
theorem c13_injective_wire (p q : Name) (x y : Nat) (hp : p.Valid) (hq : q.Valid) (hx : x < 2 ^ 64)
    (hy : y < 2 ^ 64) (h : (p.appendNumber x).wireValue = (q.appendNumber y).wireValue) : p = q ∧ x = y := by
  apply c13_injective p q x y hx hy
  have h1 := ofValue_wireValue _ (appendNumber_valid hp x)
  rw [h, ofValue_wireValue _ (appendNumber_valid hq y)] at h1
  exact (Option.some.inj h1).symm

/-- Non-vacuity for C13: the extreme values. -/
example : (Res.bind (Name.getFromEnd (Name.appendNumber [⟨8, [97]⟩] 18446744073709551615) 1) Component.toNumber)
    = .ok 18446744073709551615 := by decide +kernel
example : Name.appendNumber [⟨8, [97]⟩] 255 ≠ Name.appendNumber [⟨8, [97]⟩] 65535 := by decide +kernel

end PSync
