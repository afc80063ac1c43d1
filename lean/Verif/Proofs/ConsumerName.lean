import Verif.Proofs.Consumer
/-!
The form of the Interests in the log of a consumer, for every option: the filter keeps its shape, the IBF is a single component.
-/
namespace PSync
open Spec

/-- `bf` is `bf0` with other bits (as many). -/
def SameShape (bf0 bf : Bloom) : Prop := bf = { bf0 with bits := bf.bits } ∧ bf.bits.length = bf0.bits.length

theorem SameShape.refl (bf : Bloom) : SameShape bf bf := ⟨rfl, rfl⟩

theorem SameShape.trans {a b c : Bloom} (h1 : SameShape a b) (h2 : SameShape b c) : SameShape a c := by
  refine ⟨?_, h2.2.trans h1.2⟩
  have := h2.1
  rw [h1.1] at this
  exact this

theorem SameShape.clear (bf : Bloom) : SameShape bf bf.clear := ⟨rfl, by simp [Bloom.clear]⟩

theorem SameShape.insert {bf bf' : Bloom} {n : Name} (h : bf.insert n = .ok bf') : SameShape bf bf' := by
  unfold Bloom.insert at h
  simp only [Res.bind_eq_ok, Res.ok.injEq] at h
  obtain ⟨bits, h1, rfl⟩ := h
  refine ⟨rfl, ?_⟩
  refine foldRes_inv (P := fun b : Bytes => b.length = bf.bits.length) (f := bf.setBit n) bf.salts (fun b x b' _ hb hx => ?_) rfl h1
  unfold Bloom.setBit at hx
  split at hx
  · cases hx
  · simp only at hx
    split at hx
    · cases hx
    · cases hx; simpa using hb

theorem SameShape.inserts {bf bf' : Bloom} {ns : List Name} (h : foldRes Bloom.insert bf ns = .ok bf') : SameShape bf bf' :=
  foldRes_rel (Q := SameShape) (fun _ => .refl _) (fun _ _ _ => .trans) ns (fun _ _ _ _ h => .insert h) h

namespace Cons

/-- The name of an Interest of a consumer with the initial filter `bf0`. -/
def Asking (cfg : CCfg) (bf0 : Bloom) (n : Name) : Prop :=
  n = cfg.syncPrefix ++ [HELLO] ∨ ∃ bf t c, SameShape bf0 bf ∧ cfg.libm.toThousandths bf0.fpp = some t ∧
    n = cfg.syncPrefix ++ [SYNC, ⟨8, nniBytes bf0.projected⟩, ⟨8, nniBytes t⟩, ⟨8, bf.bits⟩, c]

/-- The invariant. -/
structure Shaped (cfg : CCfg) (bf0 : Bloom) (s : Cons) : Prop where
  iblt : s.iblt.length ≤ 1
  bloom : SameShape bf0 s.bloom
  log : ∀ n lt, Out.interest n lt ∈ s.log → Asking cfg bf0 n

variable {cfg : CCfg} {bf0 : Bloom}

theorem Shaped.congr {s s' : Cons} (h : Shaped cfg bf0 s) (h1 : s'.iblt = s.iblt) (h2 : s'.bloom = s.bloom) (h3 : s'.log = s.log) :
    Shaped cfg bf0 s' := ⟨h1 ▸ h.iblt, h2 ▸ h.bloom, h3 ▸ h.log⟩

theorem Shaped.sendHello {s : Cons} (h : Shaped cfg bf0 s) : Shaped cfg bf0 (s.sendHelloInterest cfg) := by
  refine ⟨h.iblt, h.bloom, fun n lt hn => ?_⟩
  simp only [sendHelloInterest, List.mem_append, List.mem_singleton] at hn
  rcases hn with hn | hn
  · exact h.log n lt hn
  · cases hn; exact .inl rfl

theorem Shaped.sendSync {s s' : Cons} (h : Shaped cfg bf0 s) (hx : s.sendSyncInterest cfg = .ok s') : Shaped cfg bf0 s' := by
  obtain ⟨h1, cs, h2, rfl⟩ := sendSyncInterest_ok hx
  refine ⟨h.iblt, h.bloom, fun n lt hn => ?_⟩
  simp only [List.mem_append, List.mem_singleton] at hn
  rcases hn with hn | hn
  · exact h.log n lt hn
  · cases hn
    unfold Bloom.toComponents at h2
    have e := h.bloom.1
    have e1 : s.bloom.fpp = bf0.fpp := by rw [e]
    have e2 : s.bloom.projected = bf0.projected := by rw [e]
    rw [e1] at h2
    split at h2
    · cases h2
    · rename_i t ht
      cases h2
      have hl := h.iblt
      match hi : s.iblt, h1, hl with
      | [c], _, _ => exact .inr ⟨s.bloom, t, c, h.bloom, ht, by simp [syncPrefixName, TlvType.generic, e2]⟩

theorem Shaped.emit {s : Cons} {o : Out} (h : Shaped cfg bf0 s) (ho : ∀ n lt, o ≠ .interest n lt) : Shaped cfg bf0 (s.emit o) := by
  refine ⟨h.iblt, h.bloom, fun n lt hn => ?_⟩
  simp only [Cons.emit, List.mem_append, List.mem_singleton] at hn
  rcases hn with hn | hn
  · exact h.log n lt hn
  · exact absurd hn.symm (ho n lt)

theorem Shaped.call {s s' : Cons} (h : Shaped cfg bf0 s) {c : Call} (hx : Cons.call cfg s c = .ok s') : Shaped cfg bf0 s' := by
  cases c with
  | addSubscription p seq cb =>
    simp only [Cons.call, Res.bind_eq_ok, Res.ok.injEq] at hx
    obtain ⟨⟨r, s1⟩, h1, rfl⟩ := hx
    rcases addSubscription_ok h1 with ⟨_, _, rfl⟩ | ⟨_, _, bf, hbf, _, _, hb, hi, hl⟩
    · exact h
    · refine ⟨hi ▸ h.iblt, by rw [hb]; exact h.bloom.trans (.insert hbf), fun n lt hn => ?_⟩
      simp only at hl hn
      rw [hl, List.mem_append] at hn
      rcases hn with hn | hn
      · exact h.log n lt hn
      · split at hn <;> simp at hn
  | removeSubscription p =>
    simp only [Cons.call, Res.bind_eq_ok, Res.ok.injEq] at hx
    obtain ⟨⟨r, s1⟩, h1, rfl⟩ := hx
    rcases removeSubscription_ok h1 with ⟨_, _, rfl⟩ | ⟨_, _, bf, hbf, rfl⟩
    · exact h
    · exact ⟨h.iblt, (h.bloom.trans (.clear _)).trans (.inserts hbf), h.log⟩
  | sendHello =>
    simp only [Cons.call, Res.ok.injEq] at hx
    subst hx
    exact h.sendHello
  | sendSync => exact h.sendSync hx
  | stop =>
    simp only [Cons.call, Res.ok.injEq] at hx
    subst hx
    exact ⟨h.iblt, h.bloom, h.log⟩

theorem Shaped.calls {s s' : Cons} (h : Shaped cfg bf0 s) {cs : List Call} (hx : foldRes (Cons.call cfg) s cs = .ok s') :
    Shaped cfg bf0 s' :=
  foldRes_inv (P := Shaped cfg bf0) (f := Cons.call cfg) cs (fun _ _ _ _ hs hc => hs.call hc) h hx

theorem length_drop_last (n : Name) : (n.drop (n.length - 1)).length ≤ 1 := by
  rw [List.length_drop]; omega

theorem Shaped.step {s s' : Cons} (h : Shaped cfg bf0 s) {op : Op} (hx : Cons.step cfg s op = .ok s') : Shaped cfg bf0 s' := by
  cases op with
  | call c => exact h.call hx
  | helloSegment d =>
    simp only [Cons.step] at hx
    split at hx
    · cases hx; split
      · exact h.congr rfl rfl rfl
      · exact h
    · cases hx; exact h
  | helloComplete buf a1 a2 =>
    simp only [Cons.step] at hx
    split at hx
    · simp only [onHelloData, Res.bind_eq_ok] at hx
      obtain ⟨st, _, r, _, s1, h1, h2⟩ := hx
      have k1 : Shaped cfg bf0 s1 := by
        refine Shaped.calls ?_ h1
        refine Shaped.emit ?_ (by intro n lt e; cases e)
        exact ⟨length_drop_last _, h.bloom, h.log⟩
      split at h2
      · cases h2; exact k1
      · exact Shaped.calls (k1.emit (by intro n lt e; cases e)) h2
    · cases hx; exact h
  | helloError =>
    simp only [Cons.step] at hx
    split at hx <;> (cases hx; first | exact h | exact h.congr rfl rfl rfl)
  | syncSegment d =>
    simp only [Cons.step] at hx
    split at hx
    · cases hx
      have k1 : ∀ x : Cons, Shaped cfg bf0 x → Shaped cfg bf0 (if x.contentType = .nack then x.sendHelloInterest cfg else x) := by
        intro x hx
        split
        · exact hx.sendHello
        · exact hx
      apply k1
      split
      · exact h.congr rfl rfl rfl
      · exact h
    · cases hx; exact h
  | syncComplete buf acts =>
    simp only [Cons.step] at hx
    split at hx
    · split at hx
      · cases hx; exact h.congr rfl rfl rfl
      · simp only [onSyncData, Res.bind_eq_ok] at hx
        obtain ⟨st, _, r, _, s1, h1, h2⟩ := hx
        refine Shaped.sendSync ?_ h2
        split at h1
        · cases h1; exact ⟨length_drop_last _, h.bloom, h.log⟩
        · refine Shaped.calls ?_ h1
          refine Shaped.emit ?_ (by intro n lt e; cases e)
          exact ⟨length_drop_last _, h.bloom, h.log⟩
    · cases hx; exact h
  | syncError timeout =>
    simp only [Cons.step] at hx
    split at hx
    · split at hx
      · exact Shaped.sendSync (s := { s with syncFetcher := some false }) ⟨h.iblt, h.bloom, h.log⟩ hx
      · cases hx; exact h.congr rfl rfl rfl
    · cases hx; exact h
  | tick t =>
    simp only [Cons.step, Res.ok.injEq] at hx
    subst hx
    split
    · exact h.congr rfl rfl rfl
    · exact h
  | fire =>
    simp only [Cons.step] at hx
    split at hx
    · cases hx; exact h
    · cases hx; exact Shaped.sendHello (h.congr rfl rfl rfl)
    · refine Shaped.sendSync ?_ hx
      exact ⟨h.iblt, h.bloom, h.log⟩

/-- Every Interest a consumer has sent. -/
theorem reach_asking {s : Cons} (hs : Reach cfg s) : ∃ bf0, freshFilter cfg = .ok bf0 ∧ Shaped cfg bf0 s := by
  obtain ⟨s0, ops, h0, h1⟩ := hs
  unfold init at h0
  simp only [Res.bind_eq_ok, Res.ok.injEq] at h0
  obtain ⟨bf, hb, rfl⟩ := h0
  refine ⟨bf, hb, foldRes_inv (P := Shaped cfg bf) (f := Cons.step cfg) ops (fun _ _ _ _ hs h => hs.step h) ?_ h1⟩
  exact ⟨by simp, .refl _, by simp⟩

end Cons
end PSync
