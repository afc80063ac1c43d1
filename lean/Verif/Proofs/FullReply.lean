import Verif.Proofs.MicroLog
import Verif.Proofs.Wire
import Verif.Spec.Sync
/-!
What a FullProducer answers to a sync Interest, exactly.
-/
namespace PSync
open Spec

/-- A reply to an Interest that does not end in a segment number is announced by its first segment. -/
theorem publish_first {limit now v : Nat} {p : SegPub} {n : Name} {c : Component} (hc : c.type ≠ 50) {buf : Bytes} {fr : Nat}
    {r : SegPub × List Data} (h : p.publish limit now v (n ++ [c]) (n ++ [c]) buf fr = .ok r) :
    ∃ d, (segmentData ((n ++ [c]).appendVersion v) buf fr)[0]? = some d ∧ r.2 = [d] := by
  obtain ⟨_, _, last, seg, h1, h2, h3⟩ := publish_ok h
  rw [getFromEnd_one (by simp)] at h1
  rw [List.getLast_append_of_ne_nil _ (by simp), List.getLast_singleton, Res.ok.injEq] at h1
  subst h1
  have h4 : Component.isSegment c = false := by
    unfold Component.isSegment
    have : c.type ≠ TlvType.segment := hc
    simp [this]
  rw [h4] at h2
  simp only [Bool.false_eq_true, ↓reduceIte, Res.ok.injEq] at h2
  subst h2
  have hpos := (chunks_spec buf).1
  rw [segmentData_getElem?] at h3 ⊢
  rw [List.getElem?_eq_getElem hpos] at h3 ⊢
  exact ⟨_, rfl, by simpa using h3⟩

namespace Full

/-- Nothing or one sync Interest of the current table. -/
def OwnInterest (cfg : Cfg) (b : Base) (is : List Out) : Prop :=
  is = [] ∨ ∃ n, syncName cfg b = .ok n ∧ is = [.interest n cfg.lifetime]

/-- `content` was published as the reply to `name`. -/
structure Replied (cfg : Cfg) (s s' : Full) (name : Name) (content : List Name) (fr : Nat) : Prop where
  reply : ∃ buf r is, cfg.contentCodec.compress (encodeNames content) = some buf ∧
    s.pub.publish cfg.imsLimit s.now (cfg.version s.replies.length) name name buf fr = .ok r ∧
    s'.pub = r.1 ∧ s'.log = s.log ++ r.2.map Out.data ++ is ∧ OwnInterest cfg s.base is ∧
    s'.replies = s.replies ++ [(name, buf, fr)]

theorem sendSyncInterest_replies {cfg : Cfg} {s s' : Full} (h : sendSyncInterest cfg s = .ok s') :
    s'.replies = s.replies := by
  rcases sendSyncInterest_ok h with ⟨_, rfl⟩ | ⟨_, name, hn, ⟨_, _, rfl⟩ | ⟨_, rfl⟩⟩ <;> rfl

theorem sendSyncInterest_log {cfg : Cfg} {s s' : Full} (h : sendSyncInterest cfg s = .ok s') :
    s'.pub = s.pub ∧ ∃ is, s'.log = s.log ++ is ∧ OwnInterest cfg s.base is := by
  rcases sendSyncInterest_ok h with ⟨_, rfl⟩ | ⟨_, name, hn, ⟨_, _, rfl⟩ | ⟨_, rfl⟩⟩
  · exact ⟨rfl, [], by simp, Or.inl rfl⟩
  · exact ⟨rfl, [], by simp [stopFetcher], Or.inl rfl⟩
  · exact ⟨rfl, _, rfl, Or.inr ⟨name, hn, rfl⟩⟩

theorem sendSyncData_replied {cfg : Cfg} {s s' : Full} {name : Name} {content : List Name} {fr : Nat}
    (h : sendSyncData cfg s name (encodeNames content) fr = .ok s') : Replied cfg s s' name content fr := by
  unfold sendSyncData at h
  simp only [Res.bind_eq_ok] at h
  obtain ⟨buf, hbuf, s1, h1, h2⟩ := h
  have hbuf' : cfg.contentCodec.compress (encodeNames content) = some buf := by
    unfold Res.ofOption at hbuf
    split at hbuf
    · cases hbuf; assumption
    · simp at hbuf
  generalize hx : (if (decide (s.outstanding = name) && s.fetcher.isSome) = true then
      { s.stopFetcher with outstanding := [] } else s) = x at *
  have hxb : x.base = s.base := by rw [← hx]; split <;> rfl
  have hxl : x.log = s.log := by rw [← hx]; split <;> rfl
  have hxp : x.pub = s.pub := by rw [← hx]; split <;> rfl
  have hxn : x.now = s.now := by rw [← hx]; split <;> rfl
  have hxv : x.replies = s.replies := by rw [← hx]; split <;> rfl
  obtain ⟨r, hr, rfl⟩ := publish_ok h1
  rw [hxp, hxn, hxv] at hr
  refine ⟨buf, r, ?_⟩
  split at h2
  · obtain ⟨h3, is, h4, h5⟩ := sendSyncInterest_log h2
    refine ⟨is, hbuf', hr, h3, ?_, hxb ▸ h5, (sendSyncInterest_replies h2).trans (by simp only [hxv])⟩
    rw [h4]; simp only [hxl]
  · cases h2
    exact ⟨[], hbuf', hr, rfl, by simp [hxl], Or.inl rfl, by simp only [hxv]⟩

theorem onUndecodable_reply {cfg : Cfg} {s s' : Full} {i : Interest} {t : Bool} {n : Nat} {d : IBLTDiff}
    (h : onUndecodable cfg s i t n d = .ok s') :
    (s'.pub = s.pub ∧ ∃ is, s'.log = s.log ++ is ∧ OwnInterest cfg s.base is) ∨
    (Replied cfg s s' i.name (allContent s.base) 10 ∧ allContent s.base ≠ []) := by
  unfold onUndecodable at h
  split at h
  · left
    have hw := waitOrGiveUp_view cfg s i t
    generalize waitOrGiveUp cfg s i t = x at h hw
    obtain ⟨s1, g⟩ := x
    simp only [view, View.mk.injEq] at hw
    replace hw := And.intro hw.1 (And.intro hw.2.1 hw.2.2.1)
    cases g
    · simp only [Res.ok.injEq] at h; subst h; exact ⟨hw.2.1, [], by simp [hw.2.2], Or.inl rfl⟩
    · simp only at h
      obtain ⟨h1, is, h2, h3⟩ := sendSyncInterest_log h
      exact ⟨h1.trans hw.2.1, is, by rw [h2, hw.2.2], hw.1 ▸ h3⟩
  · split at h
    · cases h; exact Or.inl ⟨rfl, [], by simp, Or.inl rfl⟩
    · simp only at h
      split at h
      · cases h
        left
        have := markWaiting_view s i.name
        simp only [view, View.mk.injEq] at this
        replace this := And.intro this.1 (And.intro this.2.1 this.2.2.1)
        exact ⟨this.2.1, [], by simp [this.2.2], Or.inl rfl⟩
      · rename_i hne
        simp only [Res.bind_eq_ok, Res.ok.injEq] at h
        obtain ⟨s1, h1, rfl⟩ := h
        right
        obtain ⟨buf, r, is, h2, h3, h4, h5, h6⟩ := sendSyncData_replied h1
        have := markWaiting_view (s1.deletePending i.name) i.name
        simp only [view, View.mk.injEq] at this
        have hrv := this.2.2.2.1
        replace this := And.intro this.1 (And.intro this.2.1 this.2.2.1)
        exact ⟨⟨buf, r, is, h2, h3, this.2.1.trans h4, this.2.2.trans h5, h6.1, hrv.trans h6.2⟩, by simpa using hne⟩

/-- The content of a reply when the difference decodes. -/
def IsContentOf (b : Base) (d : IBLTDiff) (content : List Name) : Prop :=
  ∀ n, n ∈ content ↔ ∃ h ∈ d.positive, ∃ p s, b.biMap.findLeft h = some n ∧ b.prefixes.find p = some s ∧ s ≠ 0 ∧
    n = Name.appendNumber p s ∧ nameHash (Name.appendNumber p ((s + 1) % U64)) ∉ d.negative

theorem onDecoded_reply {cfg : Cfg} {s s' : Full} (hs : s.base.Inv) {i : Interest} {t : Bool} {ib : Table} {d : IBLTDiff}
    (h : onDecoded cfg s i t ib d = .ok s') : s'.base = s.base ∧
    ((s'.pub = s.pub ∧ s'.log = s.log) ∨
     ∃ content, Replied cfg s s' i.name content cfg.freshness ∧ content ≠ [] ∧ IsContentOf s.base d content) := by
  unfold onDecoded at h
  split at h
  · simp only [Res.ok.injEq] at h
    subst h
    split
    · have := markWaiting_view { s with pending := s.pending.set i.name { (s.pending.find i.name).getD ⟨ib, 0⟩ with deadline := s.now + i.lifetime } } i.name
      simp only [view, View.mk.injEq] at this
      replace this := And.intro this.1 (And.intro this.2.1 this.2.2.1)
      exact ⟨this.1, Or.inl this.2⟩
    · exact ⟨rfl, Or.inl ⟨rfl, rfl⟩⟩
  · split at h
    · simp only [Res.ok.injEq] at h
      subst h
      have := waitOrGiveUp_view cfg s i t
      simp only [view, View.mk.injEq] at this
      replace this := And.intro this.1 (And.intro this.2.1 this.2.2.1)
      exact ⟨this.1, Or.inl this.2⟩
    · obtain ⟨l, h1, h2⟩ := collect_eq hs d.negative d.positive []
      rw [h1] at h
      simp only [List.nil_append] at h
      split at h
      · cases h; exact ⟨rfl, Or.inl ⟨rfl, rfl⟩⟩
      · rename_i hne
        simp only [Res.bind_eq_ok, Res.ok.injEq] at h
        obtain ⟨s1, h3, rfl⟩ := h
        obtain ⟨buf, r, is, h4, h5, h6, h7, h8⟩ := sendSyncData_replied (s := s) h3
        have := markWaiting_view s1 i.name
        simp only [view, View.mk.injEq] at this
        have hrv := this.2.2.2.1
        replace this := And.intro this.1 (And.intro this.2.1 this.2.2.1)
        refine ⟨this.1.trans (sendSyncData_core (s := s) h3).base, Or.inr ⟨l, ⟨buf, r, is, h4, h5, this.2.1.trans h6, this.2.2.trans h7, h8.1, hrv.trans h8.2⟩, by simpa using hne, h2⟩⟩

/-- When a decoded difference gets no reply, there was nothing to reply. -/
theorem onDecoded_quiet {cfg : Cfg} {s s' : Full} (hs : s.base.Inv) {i : Interest} {t : Bool} {ib : Table} {d : IBLTDiff}
    (h : onDecoded cfg s i t ib d = .ok s') :
    (s'.log = s.log ∧ IsContentOf s.base d []) ∨
     ∃ content, Replied cfg s s' i.name content cfg.freshness ∧ content ≠ [] ∧ IsContentOf s.base d content := by
  have empty : d.positive.isEmpty = true → IsContentOf s.base d [] := by
    intro hp n
    rw [List.isEmpty_iff] at hp
    rw [hp]
    simp
  have hlog := (onDecoded_reply hs h).2
  rcases hlog with ⟨_, h2⟩ | h2
  swap
  · exact Or.inr h2
  unfold onDecoded at h
  split at h
  · rename_i hp
    exact Or.inl ⟨h2, empty (by simp only [Bool.and_eq_true] at hp; exact hp.1)⟩
  · split at h
    · rename_i hp
      exact Or.inl ⟨h2, empty hp⟩
    · obtain ⟨l, h3, h4⟩ := collect_eq hs d.negative d.positive []
      rw [h3] at h
      simp only [List.nil_append] at h
      split at h
      · rename_i hl
        rw [List.isEmpty_iff] at hl
        subst hl
        exact Or.inl ⟨h2, h4⟩
      · rename_i hne
        simp only [Res.bind_eq_ok, Res.ok.injEq] at h
        obtain ⟨s1, h5, rfl⟩ := h
        obtain ⟨buf, r, is, h4', h5, h6, h7, h8⟩ := sendSyncData_replied (s := s) h5
        have := markWaiting_view s1 i.name
        simp only [view, View.mk.injEq] at this
        have hrv := this.2.2.2.1
        replace this := And.intro this.1 (And.intro this.2.1 this.2.2.1)
        exact Or.inr ⟨l, ⟨buf, r, is, h4', h5, this.2.1.trans h6, this.2.2.trans h7, h8.1, hrv.trans h8.2⟩, by simpa using hne, h4⟩

/-- onSyncInterest leaves the prefix table and the IBF alone. -/
theorem onSyncInterest_base {cfg : Cfg} {s s' : Full} (hs : s.base.Inv) {i : Interest} {t : Bool}
    (h : onSyncInterest cfg s i t = .ok s') : s'.base = s.base := by
  rcases onSyncInterest_cases h with ⟨d, _, rfl⟩ | ⟨_, ⟨d, _, _, rfl⟩ | rfl | ⟨c2, c1, num, ib, df, _, _, _, _, _, _, h1⟩⟩
  · rfl
  · rfl
  · rfl
  · rcases h1 with ⟨_, h1⟩ | ⟨_, h1⟩
    · exact onUndecodable_base h1
    · exact (onDecoded_reply hs h1).1

theorem processOne_base {cfg : Cfg} {s s' : Full} (hs : s.base.Inv) {n : Name}
    (h : processOne cfg s n = .ok s') : s'.base = s.base := by
  unfold processOne at h
  cases hw : s.waiting.find n with
  | none => simp only [hw, Res.ok.injEq] at h; subst h; rfl
  | some w =>
    simp only [hw] at h
    split at h
    · cases h; rfl
    · simp only [Res.bind_eq_ok] at h
      obtain ⟨s1, h1, h2⟩ := h
      have h3 := onSyncInterest_base
        (s := { s with waiting := s.waiting.set n { w with numTries := w.numTries + 1 } }) hs h1
      rw [← show s1.base = s.base from h3]
      cases hw2 : s1.waiting.find n with
      | none => simp only [hw2, Res.ok.injEq] at h2; subst h2; rfl
      | some w2 =>
        simp only [hw2] at h2
        split at h2
        · cases h2; rfl
        · cases h2; rfl

theorem processWaiting_base {cfg : Cfg} {s s' : Full} (hs : s.base.Inv)
    (h : processWaiting cfg s = .ok s') : s'.base = s.base := by
  have := foldRes_rel (Q := fun a b : Full => a.base.Inv → b.base = a.base)
    (fun _ _ => rfl)
    (fun a b c h1 h2 hi => (h2 ((h1 hi).symm ▸ hi)).trans (h1 hi)) _
    (fun a x b _ hx hi => processOne_base hi hx) h
  exact this hs

end Full

/-! Round trip of a reply -/

theorem decodeReply_encode {cfg : Cfg} (hl : cfg.contentCodec.Lossless) {content : List Name} {buf : Bytes}
    (hb : cfg.contentCodec.compress (encodeNames content) = some buf) (h : Encodable content) :
    Full.decodeReply cfg buf = some content := by
  obtain ⟨y, h1, h2⟩ := hl (encodeNames content)
  rw [hb, Option.some.injEq] at h1
  subst h1
  unfold Full.decodeReply
  rw [h2]
  simp only [wireDecode_encodeNames _ h.1 h.2]

end PSync
