import Verif.Props.Replies
import Verif.Proofs.FairReply
import Verif.Props.PartialSync
/-!
C115: no reply lists a prefix twice.
-/
namespace PSync
open Spec Base

/-- No name is listed twice and no prefix is listed with two numbers. -/
def Spec.OncePerPrefix (content : List Name) : Prop :=
  content.Nodup ∧ ∀ p x y, x < 2 ^ 64 → y < 2 ^ 64 → Name.appendNumber p x ∈ content → Name.appendNumber p y ∈ content → x = y

/-- As before, but the last name may be a number `x` of a prefix which is also listed with its larger number `y`; the
application then has published `x`. -/
def Spec.OnceButLast (made : List (Name × Nat)) (content : List Name) : Prop :=
  OncePerPrefix content ∨ ∃ l p x y, content = l ++ [Name.appendNumber p x] ∧ OncePerPrefix l ∧ Name.appendNumber p y ∈ l ∧
    x < y ∧ y < 2 ^ 64 ∧ (p, x) ∈ made

/-! ### Differences are sets -/

theorem peelLoop_ascending : ∀ (fuel : Nat) {p p' : Peel}, Ascending p.positive → peelLoop fuel p = .ok p' → Ascending p'.positive := by
  intro fuel
  induction fuel with
  | zero => intro p p' _ h; simp [peelLoop] at h
  | succ k ih =>
    intro p p' hp h
    simp only [peelLoop, Res.bind_eq_ok] at h
    obtain ⟨q, h1, h2⟩ := h
    have hq : Ascending q.positive := by
      unfold peelPass at h1
      refine foldRes_inv (P := fun q : Peel => Ascending q.positive) _ ?_ (s := { p with nErased := 0 }) hp h1
      intro a j b _ ha hb
      unfold peelAt at hb
      split at hb
      · cases hb; exact ha
      · split at hb
        · simp only [Res.bind_eq_ok] at hb
          obtain ⟨t, _, hb⟩ := hb
          split at hb
          · cases hb; exact setInsert_ascending ha _
          · cases hb; exact ha
        · cases hb; exact ha
    split at h2
    · exact ih hq h2
    · cases h2; exact hq

/-- The positive half of a difference has no key twice, whatever was subtracted. -/
theorem diff_positive_nodup {fuel : Nat} {l r : Table} {d : IBLTDiff} (h : Table.diff fuel l r = .ok d) : d.positive.Nodup := by
  unfold Table.diff at h
  simp only [Res.bind_eq_ok, Res.ok.injEq] at h
  obtain ⟨t, _, p, h1, rfl⟩ := h
  exact (peelLoop_ascending fuel (by simp [Ascending]) h1).nodup

/-! ### Names behind different hashes are different -/

theorem findLeft_inj {b : Base} (hb : b.Inv) {h k : U32} {n : Name} (h1 : b.biMap.findLeft h = some n)
    (h2 : b.biMap.findLeft k = some n) : h = k := by
  have a := (hb.bm _ _ (BiMap.findLeft_some h1)).1
  have c := (hb.bm _ _ (BiMap.findLeft_some h2)).1
  rw [a, c]

theorem filterMap_once {b : Base} (hb : b.Inv) {ks : List U32} (hk : ks.Nodup) : (ks.filterMap b.biMap.findLeft).Nodup := by
  induction ks with
  | nil => simp
  | cons k ks ih =>
    rw [List.nodup_cons] at hk
    rw [List.filterMap_cons]
    split
    · exact ih hk.2
    · rename_i n hn
      rw [List.nodup_cons]
      refine ⟨fun hm => ?_, ih hk.2⟩
      obtain ⟨j, hj, hjn⟩ := List.mem_filterMap.mp hm
      exact hk.1 (findLeft_inj hb hn hjn ▸ hj)

theorem live_once {b : Base} (hb : b.Inv) {content : List Name} (hn : content.Nodup)
    (hl : ∀ n ∈ content, ∃ p x, b.prefixes.find p = some x ∧ n = Name.appendNumber p x) : OncePerPrefix content := by
  refine ⟨hn, fun p x y hx hy h1 h2 => ?_⟩
  obtain ⟨p1, x1, e1, e2⟩ := hl _ h1
  obtain ⟨p2, x2, e3, e4⟩ := hl _ h2
  obtain ⟨rfl, rfl⟩ := appendNumber_inj' hx (hb.lt _ _ e1) e2
  obtain ⟨rfl, rfl⟩ := appendNumber_inj' hy (hb.lt _ _ e3) e4
  rw [e1, Option.some.injEq] at e3
  exact e3

theorem collect_once {b : Base} (hb : b.Inv) (neg : List U32) (hs : List U32) : ∀ (acc : List Name),
    ∃ l, (Full.collect neg b hs acc).1 = acc ++ l ∧ l.Sublist (hs.filterMap b.biMap.findLeft) := by
  induction hs with
  | nil => intro acc; exact ⟨[], by simp [Full.collect], by simp⟩
  | cons h hs ih =>
    intro acc
    unfold Full.collect
    rw [List.filterMap_cons]
    cases hf : b.biMap.findLeft h with
    | none => exact ih acc
    | some n =>
      obtain ⟨_, p, s, hp, hs0, hn⟩ := hb.bm _ _ (BiMap.findLeft_some hf)
      subst hn
      simp only [Full.dropLast_appendNumber, Full.index_of_find hp, if_pos hs0, Full.isFutureHash_of_find neg hp]
      split
      · obtain ⟨l, h1, h2⟩ := ih acc
        exact ⟨l, h1, h2.cons _⟩
      · obtain ⟨l, h1, h2⟩ := ih (acc ++ [Name.appendNumber p s])
        exact ⟨Name.appendNumber p s :: l, by rw [h1]; simp, h2.cons_cons _⟩

theorem keys_once {m : NMap Nat} (hm : m.Sorted) {f : Name × Nat → Bool} (hlt : ∀ p s, m.find p = some s → s < U64) :
    ((m.filter f).map (fun kv => Name.appendNumber kv.1 kv.2)).Nodup := by
  have hk : (m.map Prod.fst).Nodup := NMap.keys_nodup hm
  have hnd : (m.filter f).Nodup := List.Nodup.filter _ (List.Nodup.of_map _ hk)
  refine List.Nodup.map_on (fun a ha c hc hac => ?_) hnd
  have ha' := (NMap.find_iff hm).mpr (show (a.1, a.2) ∈ m from (List.mem_filter.mp ha).1)
  have hc' := (NMap.find_iff hm).mpr (show (c.1, c.2) ∈ m from (List.mem_filter.mp hc).1)
  obtain ⟨h1, h2⟩ := appendNumber_inj' (hlt _ _ ha') (hlt _ _ hc') hac
  exact Prod.ext h1 h2

/-! ### FullProducer -/

namespace Full

/-- The names are in the table, or the application has published them. -/
def NamedIn (b : Base) (made : List (Name × Nat)) (content : List Name) : Prop :=
  ∀ n ∈ content, ∃ p x, n = Name.appendNumber p x ∧ x < 2 ^ 64 ∧ (b.prefixes.find p = some x ∧ x ≠ 0 ∨ (p, x) ∈ made)

/-- What every reply recorded between the tables `a` and `b` is like. -/
def ReplyOnce (cfg : Cfg) (a b : Base) (made : List (Name × Nat)) (e : Name × Bytes × Nat) : Prop :=
  ∃ content t, cfg.contentCodec.compress (encodeNames content) = some e.2.1 ∧ OnceButLast made content ∧
    Base.Steps (fun _ => True) a t ∧ Base.Steps (fun _ => True) t b ∧ NamedIn t made content

theorem ReplyOnce.mono {cfg : Cfg} {a a' b b' : Base} {m m' : List (Name × Nat)} {e : Name × Bytes × Nat} (h : ReplyOnce cfg a b m e)
    (ha : Base.Steps (fun _ => True) a' a) (hb : Base.Steps (fun _ => True) b b') (hm : m <+: m') : ReplyOnce cfg a' b' m' e := by
  obtain ⟨c, t, h1, h2, k1, k2, k3⟩ := h
  refine ⟨c, t, h1, ?_, ha.trans k1, k2.trans hb, fun n hn => ?_⟩
  · rcases h2 with h2 | ⟨l, p, x, y, h2, h3, h4, h5, h6, h7⟩
    · exact .inl h2
    · exact .inr ⟨l, p, x, y, h2, h3, h4, h5, h6, hm.subset h7⟩
  · obtain ⟨p, x, e1, e2, e3⟩ := k3 n hn
    exact ⟨p, x, e1, e2, e3.imp id (fun h => hm.subset h)⟩

/-- Between two states only such replies are made. -/
structure OnceStep (cfg : Cfg) (s s' : Full) : Prop where
  inv : s'.base.Inv
  steps : Base.Steps (fun _ => True) s.base s'.base
  made : s.made <+: s'.made
  replies : ∀ e ∈ s'.replies, e ∈ s.replies ∨ ReplyOnce cfg s.base s'.base s'.made e

theorem OnceStep.keep {cfg : Cfg} {s s' : Full} (hs : s.base.Inv) (h : s'.base = s.base) (hm : s.made <+: s'.made) (h' : s'.replies = s.replies) :
    OnceStep cfg s s' := ⟨h ▸ hs, .of_eq h, hm, fun _ he => .inl (h' ▸ he)⟩

theorem OnceStep.trans {cfg : Cfg} {a b c : Full} (h : OnceStep cfg a b) (h' : OnceStep cfg b c) : OnceStep cfg a c := by
  refine ⟨h'.inv, h.steps.trans h'.steps, h.made.trans h'.made, fun e he => ?_⟩
  rcases h'.replies e he with h1 | h1
  · exact (h.replies e h1).imp id (fun h2 => h2.mono .refl h'.steps h'.made)
  · exact .inr (h1.mono h.steps .refl (List.prefix_refl _))

theorem Replied.once {cfg : Cfg} {s s' : Full} {n : Name} {content : List Name} {fr : Nat} (hi : s'.base.Inv) (hb : s'.base = s.base)
    (hm : s.made <+: s'.made) (h : Replied cfg s s' n content fr) (hc : OnceButLast s.made content) (hn : NamedIn s.base s.made content) :
    OnceStep cfg s s' := by
  obtain ⟨buf, r, is, h1, _, _, _, _, h2⟩ := h
  refine ⟨hi, .of_eq hb, hm, fun e he => ?_⟩
  rw [h2] at he
  rcases List.mem_append.mp he with he | he
  · exact .inl he
  · rw [List.mem_singleton.mp he]
    exact .inr (ReplyOnce.mono ⟨content, s.base, h1, hc, .refl, .refl, hn⟩ .refl (.of_eq hb) hm)

theorem onDecoded_once {cfg : Cfg} {s s' : Full} (hs : s.base.Inv) {i : Interest} {t : Bool} {ib : Table} {d : IBLTDiff}
    (hd : d.positive.Nodup) (hm : s.made <+: s'.made) (h : onDecoded cfg s i t ib d = .ok s') : OnceStep cfg s s' := by
  have hb := (onDecoded_reply hs h).1
  unfold onDecoded at h
  split at h
  · refine .keep hs hb hm ?_
    simp only [Res.ok.injEq] at h
    subst h
    split
    · have := markWaiting_view { s with pending := s.pending.set i.name { (s.pending.find i.name).getD ⟨ib, 0⟩ with deadline := s.now + i.lifetime } } i.name
      simp only [view, View.mk.injEq] at this
      exact this.2.2.2.1
    · rfl
  · split at h
    · refine .keep hs hb hm ?_
      simp only [Res.ok.injEq] at h
      subst h
      have := waitOrGiveUp_view cfg s i t
      simp only [view, View.mk.injEq] at this
      exact this.2.2.2.1
    · obtain ⟨l, h1, h2⟩ := collect_eq hs d.negative d.positive []
      obtain ⟨l', h1', h2'⟩ := collect_once hs d.negative d.positive []
      rw [h1] at h h1'
      simp only [List.nil_append] at h h1'
      subst h1'
      split at h
      · cases h; exact .keep hs rfl (List.prefix_refl _) rfl
      · simp only [Res.bind_eq_ok, Res.ok.injEq] at h
        obtain ⟨s1, h3, rfl⟩ := h
        obtain ⟨buf, r, is, h4, h5, h6, h7, h8⟩ := sendSyncData_replied (s := s) h3
        have := markWaiting_view s1 i.name
        simp only [view, View.mk.injEq] at this
        refine Replied.once (hb ▸ hs) hb hm (content := l) ⟨buf, r, is, h4, h5, this.2.1.trans h6, this.2.2.1.trans h7, h8.1, this.2.2.2.1.trans h8.2⟩
          (.inl (live_once hs (h2'.nodup (filterMap_once hs hd)) fun n hn => ?_)) (fun n hn => ?_)
        · obtain ⟨_, _, p, x, _, hp, _, rfl, _⟩ := (h2 n).mp hn
          exact ⟨p, x, hp, rfl⟩
        · obtain ⟨_, _, p, x, _, hp, h0, rfl, _⟩ := (h2 n).mp hn
          exact ⟨p, x, rfl, hs.lt _ _ hp, .inl ⟨hp, h0⟩⟩

theorem onSyncInterest_once {cfg : Cfg} {s s' : Full} (hs : s.base.Inv) {i : Interest} {t : Bool}
    (h : onSyncInterest cfg s i t = .ok s') : OnceStep cfg s s' := by
  have hb := onSyncInterest_base hs h
  have hm : s.made <+: s'.made := (onSyncInterest_micro (R := fun _ => True) (L := fun _ _ => True) (M := fun _ => True) hs h).made
  rcases onSyncInterest_cases h with ⟨d, hd, rfl⟩ | ⟨hst, ⟨d, _, hd, rfl⟩ | rfl | ⟨c2, c1, num, ib, df, _, _, _, _, _, e6, h1⟩⟩
  · exact .keep hs rfl (List.prefix_refl _) rfl
  · exact .keep hs rfl (List.prefix_refl _) rfl
  · exact .keep hs rfl (List.prefix_refl _) rfl
  · rcases h1 with ⟨_, h1⟩ | ⟨_, h1⟩
    · rcases onUndecodable_replies h1 with h2 | ⟨h2, _⟩
      · exact .keep hs hb hm h2
      · refine h2.once (hb ▸ hs) hb hm (.inl (live_once hs (keys_once hs.sorted hs.lt) fun n hn => ?_)) (fun n hn => ?_)
        · obtain ⟨p, x, hp, _, rfl⟩ := (allContent_live hs).mp hn
          exact ⟨p, x, hp, rfl⟩
        · obtain ⟨p, x, hp, h0, rfl⟩ := (allContent_live hs).mp hn
          exact ⟨p, x, rfl, hs.lt _ _ hp, .inl ⟨hp, h0⟩⟩
    · exact onDecoded_once hs (diff_positive_nodup e6) hm h1

theorem processOne_once {cfg : Cfg} {s s' : Full} (hs : s.base.Inv) {n : Name} (h : processOne cfg s n = .ok s') : OnceStep cfg s s' := by
  unfold processOne at h
  cases hw : s.waiting.find n with
  | none => simp only [hw, Res.ok.injEq] at h; subst h; exact .keep hs rfl (List.prefix_refl _) rfl
  | some w =>
    simp only [hw] at h
    split at h
    · cases h; exact .keep hs rfl (List.prefix_refl _) rfl
    · simp only [Res.bind_eq_ok] at h
      obtain ⟨s1, h1, h2⟩ := h
      have h3 := onSyncInterest_once (s := { s with waiting := s.waiting.set n { w with numTries := w.numTries + 1 } }) hs h1
      have h3' : OnceStep cfg s s1 := ⟨h3.inv, h3.steps, h3.made, h3.replies⟩
      cases hw2 : s1.waiting.find n with
      | none => simp only [hw2, Res.ok.injEq] at h2; subst h2; exact h3'
      | some w2 =>
        simp only [hw2] at h2
        split at h2
        · cases h2; exact ⟨h3.inv, h3.steps, h3.made, h3.replies⟩
        · cases h2; exact h3'

theorem processWaiting_once {cfg : Cfg} {s s' : Full} (hs : s.base.Inv) (h : processWaiting cfg s = .ok s') : OnceStep cfg s s' :=
  foldRes_rel (Q := fun a b : Full => a.base.Inv → OnceStep cfg a b)
    (fun _ hi => .keep hi rfl (List.prefix_refl _) rfl) (fun _ _ _ h1 h2 hi => (h1 hi).trans (h2 (h1 hi).inv)) _
    (fun _ _ _ _ hx hi => processOne_once hi hx) h hs

/-- What publishName puts into a reply. -/
theorem satisfyContent_once {b : Base} (hb : b.Inv) {ks : List U32} (hk : ks.Nodup) {p : Name} {q y : Nat} {made : List (Name × Nat)}
    (hq : q < U64) (hp : b.prefixes.find p = some y) (hle : q ≤ y) (hm : (p, q) ∈ made) :
    OnceButLast made (satisfyContent b ks (Name.appendNumber p q)) := by
  have hf : ∀ n ∈ ks.filterMap b.biMap.findLeft, ∃ p x, b.prefixes.find p = some x ∧ n = Name.appendNumber p x := by
    intro n hn
    obtain ⟨j, _, hj⟩ := List.mem_filterMap.mp hn
    obtain ⟨_, p, x, e1, _, e2⟩ := hb.bm _ _ (BiMap.findLeft_some hj)
    exact ⟨p, x, e1, e2⟩
  have ho := live_once hb (filterMap_once hb hk) hf
  unfold satisfyContent
  simp only
  split
  · exact .inl ho
  · rename_i hnot
    by_cases hy : Name.appendNumber p y ∈ ks.filterMap b.biMap.findLeft
    · have : q ≠ y := by rintro rfl; exact hnot hy
      exact .inr ⟨_, p, q, y, rfl, ho, hy, by omega, hb.lt _ _ hp, hm⟩
    · left
      have other : ∀ x, x < 2 ^ 64 → Name.appendNumber p x ∉ ks.filterMap b.biMap.findLeft := by
        intro x hx hin
        obtain ⟨p1, x1, e1, e2⟩ := hf _ hin
        obtain ⟨rfl, rfl⟩ := appendNumber_inj' hx (hb.lt _ _ e1) e2
        rw [hp, Option.some.injEq] at e1
        exact hy (e1 ▸ hin)
      refine ⟨List.nodup_append.mpr ⟨ho.1, by simp, ?_⟩, fun p' x x' hx hx' h1 h2 => ?_⟩
      · intro a ha c hc hac
        rw [List.mem_singleton] at hc
        exact hnot (hc ▸ hac ▸ ha)
      · rw [List.mem_append, List.mem_singleton] at h1 h2
        rcases h1 with h1 | h1 <;> rcases h2 with h2 | h2
        · exact ho.2 p' x x' hx hx' h1 h2
        · obtain ⟨rfl, rfl⟩ := appendNumber_inj' hx' hq h2
          exact absurd h1 (other _ hx)
        · obtain ⟨rfl, rfl⟩ := appendNumber_inj' hx hq h1
          exact absurd h2 (other _ hx')
        · obtain ⟨rfl, rfl⟩ := appendNumber_inj' hx hq h1
          exact ((appendNumber_inj' hx' hq h2).2).symm

theorem satisfyContent_named {b : Base} (hb : b.Inv) {ks : List U32} {p : Name} {q : Nat} {made : List (Name × Nat)}
    (hq : q < U64) (hm : (p, q) ∈ made) : NamedIn b made (satisfyContent b ks (Name.appendNumber p q)) := by
  intro n hn
  have hf : ∀ n ∈ ks.filterMap b.biMap.findLeft, ∃ p x, n = Name.appendNumber p x ∧ x < 2 ^ 64 ∧
      (b.prefixes.find p = some x ∧ x ≠ 0 ∨ (p, x) ∈ made) := by
    intro n hn
    obtain ⟨j, _, hj⟩ := List.mem_filterMap.mp hn
    obtain ⟨_, p, x, e1, e0, e2⟩ := hb.bm _ _ (BiMap.findLeft_some hj)
    exact ⟨p, x, e2, hb.lt _ _ e1, .inl ⟨e1, e0⟩⟩
  unfold satisfyContent at hn
  simp only at hn
  split at hn
  · exact hf n hn
  · rcases List.mem_append.mp hn with hn | hn
    · exact hf n hn
    · exact ⟨p, q, List.mem_singleton.mp hn, hq, .inr hm⟩

theorem publishName_once {cfg : Cfg} {s s' : Full} (hs : s.base.Inv) {p : Name} {seq : Option Nat}
    (h : publishName cfg s p seq = .ok s') : OnceStep cfg s s' := by
  unfold publishName at h
  cases hp : s.base.prefixes.find p with
  | none => simp only [hp, Res.ok.injEq] at h; subst h; exact .keep hs rfl (List.prefix_refl _) rfl
  | some cur =>
    simp only [hp, Res.bind_eq_ok] at h
    obtain ⟨b, h1, h2⟩ := h
    have hlt := newSeq_lt seq cur
    have hbi : b.Inv := Base.inv_update hs hlt h1
    have hfind : b.prefixes.find p = some (max cur (newSeq seq cur)) := by
      rw [Base.find_updateSeqNo h1, if_pos rfl, hp]; rfl
    have := foldRes_rel (Q := fun a c : Full => a.base = b → (p, newSeq seq cur) ∈ a.made →
        c.base = b ∧ (p, newSeq seq cur) ∈ c.made ∧ OnceStep cfg a c)
      (fun a e1 e2 => ⟨e1, e2, .keep (e1 ▸ hbi) rfl (List.prefix_refl _) rfl⟩)
      (fun _ _ _ g1 g2 e1 e2 => by
        obtain ⟨a1, a2, a3⟩ := g1 e1 e2
        obtain ⟨b1, b2, b3⟩ := g2 a1 a2
        exact ⟨b1, b2, a3.trans b3⟩) _
      (fun a e c _ hx e1 e2 => by
        have hxb := satisfyOne_core hx
        have hmm : a.made <+: c.made := (satisfyOne_micro (R := fun _ => True) (L := fun _ _ => True) (M := fun _ => True)
          (e1 ▸ hbi) (.inr ⟨e1 ▸ updateSeqNo_known hp h1, p, _, e2, hlt, rfl⟩) hx).made
        refine ⟨hxb.trans e1, hmm.subset e2, ?_⟩
        unfold satisfyOne at hx
        simp only [Res.bind_eq_ok, Res.ok.injEq] at hx
        obtain ⟨d, hd, s1, h3, rfl⟩ := hx
        obtain ⟨buf, r, is, h4, h5, h6, h7, h8⟩ := sendSyncData_replied h3
        refine Replied.once (hxb ▸ e1 ▸ hbi) hxb hmm (fr := cfg.freshness) ⟨buf, r, is, h4, h5, h6, h7, h8⟩ ?_ ?_
        · exact satisfyContent_once (e1 ▸ hbi) (diff_positive_nodup hd) hlt (e1 ▸ hfind) (by omega) e2
        · exact satisfyContent_named (e1 ▸ hbi) hlt e2) h2 rfl (by simp)
    obtain ⟨_, _, h3⟩ := this
    have h4 : Base.Steps (fun _ => True) s.base b := .single (.update p _ hlt h1)
    exact ⟨h3.inv, h4.trans h3.steps, (List.prefix_append _ _).trans h3.made,
      fun e he => (h3.replies e he).imp id (fun h5 => h5.mono h4 .refl (List.prefix_refl _))⟩

theorem call_once {cfg : Cfg} {s s' : Full} (hs : s.base.Inv) {c : Call} (h : call cfg s c = .ok s') : OnceStep cfg s s' := by
  have hi := (call_steps h).inv hs
  have hst := (call_steps h).mono (fun _ _ => trivial)
  cases c with
  | addUserNode p =>
    simp only [call, Res.ok.injEq] at h
    subst h
    exact ⟨hi, hst, List.prefix_refl _, fun _ he => .inl he⟩
  | removeUserNode p =>
    simp only [call, Res.bind_eq_ok, Res.ok.injEq] at h
    obtain ⟨b, h1, rfl⟩ := h
    exact ⟨hi, hst, List.prefix_refl _, fun _ he => .inl he⟩
  | publishName p q => exact publishName_once hs h

theorem step_once {cfg : Cfg} {s s' : Full} (hs : s.base.Inv) {op : Op} (h : step cfg s op = .ok s') : OnceStep cfg s s' := by
  have hi : s'.base.Inv := (step_micro hs h).steps.inv hs
  have hm : s.made <+: s'.made := (step_micro hs h).made
  have same : s'.replies = s.replies → OnceStep cfg s s' := fun he =>
    ⟨hi, (step_steps h).mono (fun _ _ => trivial), hm, fun _ h => .inl (he ▸ h)⟩
  cases op with
  | call c => exact call_once hs h
  | recvInterest i =>
    simp only [step] at h
    split at h
    · exact onSyncInterest_once hs h
    · cases h; exact same rfl
  | segment f =>
    simp only [step] at h
    split at h
    · cases h; apply same; split <;> rfl
    · cases h; exact same rfl
  | complete buf acts =>
    simp only [step] at h
    split at h
    · split at h
      · rcases onSyncData_cases (s := s.stopFetcher) hs h with ⟨_, rfl⟩ | ⟨ns, r, _, h2, _, h3⟩
        · exact same rfl
        · rcases h3 with ⟨_, hb, rfl⟩ | ⟨_, s1, h6, _, hb, h7⟩
          · exact same rfl
          · obtain ⟨us, hu, hmr, _⟩ := merge_rel _ h2
            have hri : r.2.Inv := (hmr.steps (R := fun _ => True)).inv hs
            have a2 := foldRes_rel (Q := fun a b : Full => a.base.Inv → OnceStep cfg a b)
              (fun _ hi => .keep hi rfl (List.prefix_refl _) rfl) (fun _ _ _ h1 h2 hi => (h1 hi).trans (h2 (h1 hi).inv)) _
              (fun a c b hc hx hi => call_once hi hx) h6 hri
            have a3 := processWaiting_once (s := { s1 with
              sched := some (s1.now + cfg.jitter s1.draws, .renew), draws := s1.draws + 1, waitOut := false }) a2.inv h7
            have hmb : Base.Steps (fun _ => True) s.base r.2 := hmr.steps
            have a4 : OnceStep cfg s s1 := ⟨a2.inv, hmb.trans a2.steps, a2.made,
              fun e he => (a2.replies e he).imp id (fun h5 => h5.mono hmb .refl (List.prefix_refl _))⟩
            exact a4.trans ⟨a3.inv, a3.steps, a3.made, a3.replies⟩
      · cases h; exact same rfl
    · cases h; exact same rfl
  | error t =>
    simp only [step] at h
    split at h
    · split at h
      · cases h; apply same; split <;> rfl
      · cases h; exact same rfl
    · cases h; exact same rfl
  | tick t =>
    simp only [step, Res.ok.injEq] at h
    subst h
    apply same
    split <;> rfl
  | fireSync =>
    simp only [step] at h
    split at h
    · split at h
      · split at h
        · exact same (sendSyncInterest_replies (s := { s with sched := none }) h)
        · exact same (sendSyncInterest_replies (s := { s with sched := none, waitOut := false }) h)
      · cases h; exact same rfl
    · cases h; exact same rfl
  | fireDelay =>
    simp only [step] at h
    split at h
    · split at h
      · simp only [Res.bind_eq_ok, Res.ok.injEq] at h
        obtain ⟨s1, h1, rfl⟩ := h
        have h2 := processWaiting_once (s := { s with delayTimer := none }) hs h1
        have h3 := scheduleProcess_view cfg s1
        simp only [view, View.mk.injEq] at h3
        have a1 : OnceStep cfg s s1 := ⟨h2.inv, h2.steps, h2.made, h2.replies⟩
        exact a1.trans (.keep h2.inv h3.1 (h3.2.2.2.2.1 ▸ List.prefix_refl _) h3.2.2.2.1)
      · cases h; exact same rfl
    · cases h; exact same rfl
  | expire n =>
    simp only [step] at h
    split at h
    · cases h; apply same; split <;> rfl
    · cases h; exact same rfl
  | fireStore =>
    simp only [step, Res.ok.injEq] at h
    subst h
    exact same rfl

theorem reach_once {cfg : Cfg} {s : Full} (h : Reach cfg s) : ∀ e ∈ s.replies, ReplyOnce cfg (Base.new cfg) s.base s.made e := by
  obtain ⟨s0, ops, h0, h1⟩ := h
  have hi0 : s0.base.Inv := reach_inv ⟨s0, [], h0, rfl⟩
  have := foldRes_rel (Q := fun a b : Full => a.base.Inv → OnceStep cfg a b)
    (fun _ hi => .keep hi rfl (List.prefix_refl _) rfl) (fun _ _ _ h1 h2 hi => (h1 hi).trans (h2 (h1 hi).inv)) _
    (fun _ _ _ _ hx hi => step_once hi hx) h1 hi0
  intro e he
  rcases this.replies e he with h2 | h2
  · have : s0.replies = [] := sendSyncInterest_replies h0
    rw [this] at h2
    simp at h2
  · rw [init_base h0] at h2
    exact h2

end Full

/-! ### PartialProducer -/

theorem Part.collect_sublist {b : Base} {bf : Bloom} (hs : List U32) : ∀ (acc content : List Name),
    Part.collect b bf hs acc = .ok content → ∃ l, content = acc ++ l ∧ l.Sublist (hs.filterMap b.biMap.findLeft) := by
  induction hs with
  | nil => intro acc content h; simp only [Part.collect, Res.ok.injEq] at h; subst h; exact ⟨[], by simp, by simp⟩
  | cons k hs ih =>
    intro acc content h
    unfold Part.collect at h
    rw [List.filterMap_cons]
    cases hk : b.biMap.findLeft k with
    | none => simp only [hk] at h; exact ih acc content h
    | some n =>
      simp only [hk, Res.bind_eq_ok] at h
      obtain ⟨sub, _, h⟩ := h
      cases sub with
      | false =>
        obtain ⟨l, h1, h2⟩ := ih _ _ h
        exact ⟨l, by simpa using h1, h2.cons _⟩
      | true =>
        obtain ⟨l, h1, h2⟩ := ih _ _ h
        exact ⟨n :: l, by simpa using h1, h2.cons_cons _⟩

/-! ### The theorems -/

/-- C115 for a PartialProducer, over its whole life and whatever it receives: each Data it ever sent is an application
nack or a packet of a reply (hello or sync) that lists no name twice and no prefix with two numbers. -/
theorem c115_partial_sync (cfg : Cfg) (s : Part) (hs : Part.Reach cfg s) (d : Data) (hd : Out.data d ∈ s.log) :
    (d.contentType = .nack ∧ d.content = []) ∨
    ∃ name fr segs content, IsSegmentation name (encodeNames content) fr segs ∧ d ∈ segs ∧ OncePerPrefix content := by
  rcases Part.reach_recorded hs hd with ⟨b, key, bf, iblt, _, hn⟩ | ⟨k, e, hk, hm⟩
  · left
    unfold nackData at hn
    simp only [Res.bind_eq_ok, Res.ok.injEq] at hn
    obtain ⟨_, _, rfl⟩ := hn
    exact ⟨rfl, rfl⟩
  · right
    obtain ⟨ops, hrun⟩ := hs
    rcases Part.run_replies ⟨NMap.sorted_nil, fun n e h => by cases h⟩ hrun e (List.mem_of_getElem? hk) with h | ⟨pre, post, r, _, hpre, _, hdata⟩
    · simp [Part.init] at h
    have hinv : r.base.Inv := Part.reach_inv ⟨pre, hpre⟩
    obtain ⟨nm, buf, fr⟩ := e
    simp only at hdata hm
    have fin : ∀ content, buf = encodeNames content → OncePerPrefix content →
        ∃ name fr segs content, IsSegmentation name (encodeNames content) fr segs ∧ d ∈ segs ∧ OncePerPrefix content := by
      rintro content rfl ho
      exact ⟨_, fr, _, content, segmentData_spec _ _ _, hm, ho⟩
    cases hdata with
    | hello c hc =>
      refine fin _ rfl (live_once hinv ?_ fun n hn => ?_)
      · have := keys_once hinv.sorted (f := fun _ => true) hinv.lt
        rwa [List.filter_true] at this
      · obtain ⟨kv, h1, rfl⟩ := List.mem_map.mp hn
        exact ⟨kv.1, kv.2, (NMap.find_iff hinv.sorted).mpr h1, rfl⟩
    | asked n key bf iblt diff content c _ _ _ hdf _ hcol _ =>
      obtain ⟨l, h1, h2⟩ := Part.collect_sublist _ _ _ hcol
      rw [List.nil_append] at h1
      subst h1
      refine fin _ rfl (live_once hinv (h2.nodup (filterMap_once hinv (diff_positive_nodup hdf))) fun n hn => ?_)
      obtain ⟨j, _, hj⟩ := List.mem_filterMap.mp (h2.subset hn)
      obtain ⟨_, p, x, e1, _, e2⟩ := hinv.bm _ _ (BiMap.findLeft_some hj)
      exact ⟨p, x, e1, e2⟩
    | parked p x key bf iblt diff sub c _ _ hp _ _ _ _ =>
      refine fin _ rfl (live_once hinv ?_ fun n hn => ?_)
      · split <;> simp
      · cases sub with
        | false => simp at hn
        | true => exact ⟨p, x, hp, by simpa using hn⟩

/-- C115 for a FullProducer, partial: each Data it ever sent is an application nack or a packet of a reply that lists no
name twice and no prefix with two numbers, except that the last name may repeat a prefix with a smaller number that the
application published.  (Missing: this exception, which occurs, `c115_false`.) -/
theorem c115_full_partial (cfg : Cfg) (hl : cfg.contentCodec.Lossless) (s : Full) (hs : Full.Reach cfg s) (d : Data)
    (hd : Out.data d ∈ s.log) :
    (d.contentType = .nack ∧ d.content = []) ∨
    ∃ name content, PartOfReply cfg name content d ∧ OnceButLast s.made content ∧
      ∀ n ∈ content, ∃ p x, x < 2 ^ 64 ∧ n = Name.appendNumber p x := by
  rcases Full.reach_recorded hs hd with ⟨b, hn⟩ | ⟨k, e, hk, hm⟩
  · left
    unfold nackData at hn
    simp only [Res.bind_eq_ok, Res.ok.injEq] at hn
    obtain ⟨_, _, rfl⟩ := hn
    exact ⟨rfl, rfl⟩
  · right
    obtain ⟨content, t, h1, h2, _, _, h3⟩ := Full.reach_once hs e (List.mem_of_getElem? hk)
    obtain ⟨y, e1, e2⟩ := hl (encodeNames content)
    rw [h1, Option.some.injEq] at e1
    subst e1
    exact ⟨e.1, content, ⟨_, _, _, _, segmentData_spec _ _ _, hm, e2⟩, h2,
      fun n hn => by obtain ⟨p, x, e3, e4, _⟩ := h3 n hn; exact ⟨p, x, e4, e3⟩⟩

/-- The full claim C115 for a FullProducer (replies of one segment). -/
def Spec.ListsOnce : Prop :=
  ∀ cfg : Cfg, cfg.WF → ∀ s : Full, Full.Reach cfg s → ∀ d, Out.data d ∈ s.log → d.finalBlock = some ⟨50, [0]⟩ →
    OncePerPrefix (namesIn cfg d.content)

/-- The Interest of a node that knows /b/1. -/
def b1Interest : Interest :=
  ⟨((Res.bind (Full.init sampleCfg) fun s => Res.bind (Full.run sampleCfg s
    [.call (.addUserNode pB), .call (.publishName pB (some 1))]) fun s => Full.syncName sampleCfg s.base).get?).getD [], 1000, 5⟩

/-- An Interest of a node with the same data is parked; then /a/5 arrives from a third node; then the application, which
was restarted and counts from the beginning, publishes the number `q` of /a. -/
def restartOps (q : Nat) : List Full.Op :=
  [.call (.addUserNode pB), .call (.publishName pB (some 1)), .recvInterest b1Interest,
   .complete (encodeNames [pA.appendNumber 5]) [], .call (.publishName pA (some q))]

/-- The names in the last output. -/
def lastNames (s : Full) : Option (Option Component × List Name) :=
  match s.log.getLast? with
  | some (.data d) => some (d.finalBlock, namesIn sampleCfg d.content)
  | _ => none

/-- C115 is false for a FullProducer: the reply lists /a/5 and /a/3. -/
theorem c115_false : ¬ Spec.ListsOnce := by
  intro h
  have key : ∃ s, (Res.bind (Full.init sampleCfg) fun s => Full.run sampleCfg s (restartOps 3)) = .ok s ∧
      lastNames s = some (some ⟨50, [0]⟩, [pA.appendNumber 5, pA.appendNumber 3]) := Res.of_get? (by decide +kernel)
  obtain ⟨s, h1, h2⟩ := key
  rw [Res.bind_eq_ok] at h1
  obtain ⟨s0, h0, h1⟩ := h1
  unfold lastNames at h2
  split at h2
  · rename_i d hd
    simp only [Option.some.injEq, Prod.mk.injEq] at h2
    have := (h sampleCfg sampleCfg_wf s ⟨s0, _, h0, h1⟩ d (List.mem_of_getLast? hd) h2.1).2 pA 5 3 (by omega) (by omega)
      (by rw [h2.2]; simp) (by rw [h2.2]; simp)
    omega
  · simp at h2

/-- Non-vacuity for C115: the same run with the number 7 makes a reply that lists /a once. -/
example : (Res.bind (Full.init sampleCfg) fun s => Full.run sampleCfg s (restartOps 7)).get?.map lastNames =
    some (some (some ⟨50, [0]⟩, [pA.appendNumber 7])) := by decide +kernel

/-- Non-vacuity for C115: a PartialProducer with /a/3 and /b/1 answers a hello Interest and the Interest of a consumer
that knows nothing, with two names each. -/
example : (partRun [.addUserNode pA, .addUserNode pB, .publishName pA (some 3), .publishName pB none,
      .recvInterest ⟨nameOf [115] ++ [HELLO], 1000, 1⟩, .recvInterest allInterest]).get?.map (fun s : Part =>
        (dataOf s.log).map (fun d => (StateMsg.wireDecode d.content).get?.map (fun m => m.content.length)))
    = some [some 2, some 2] := by decide +kernel

end PSync
