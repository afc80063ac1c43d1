import Verif.Proofs.Partial
import Verif.Proofs.SegPub
import Verif.Spec.Sync
/-!
Handlers as sequences of small observable actions: changes of the prefix table, transmissions,
notifications.
-/
namespace PSync
open Spec

theorem announced_of {n : Name} {c : Component} {q : Nat} (hc : n.getFromEnd 1 = .ok c) (hq : c.toNumber = .ok q) :
    announced n = some (n.dropLast 1, q) ∧ q < U64 := by
  have hn : n ≠ [] := by rintro rfl; simp [Name.getFromEnd] at hc
  rw [getFromEnd_one hn, Res.ok.injEq] at hc
  refine ⟨?_, toNumber_lt hq⟩
  unfold announced
  rw [List.getLast?_eq_some_getLast hn, hc]
  simp only
  unfold Component.toNumber Res.ofOption at hq
  cases hr : readNni c.value with
  | none => simp [hr] at hq
  | some x =>
    rw [hr] at hq
    simp only [Res.ok.injEq] at hq
    subst hq
    have hl : 1 ≤ n.length := List.length_pos_iff.mpr hn
    simp only [Option.map_some, Name.dropLast, if_pos hl]

theorem of_announced {n : Name} {p : Name} {q : Nat} (h : announced n = some (p, q)) :
    ∃ c, n.getFromEnd 1 = .ok c ∧ c.toNumber = .ok q ∧ n.dropLast 1 = p := by
  unfold announced at h
  cases hl : n.getLast? with
  | none => simp [hl] at h
  | some c =>
    have hn : n ≠ [] := by rintro rfl; simp at hl
    rw [List.getLast?_eq_some_getLast hn, Option.some.injEq] at hl
    rw [List.getLast?_eq_some_getLast hn, hl] at h
    refine ⟨c, by rw [getFromEnd_one hn, hl], ?_⟩
    cases hr : readNni c.value with
    | none => simp [hr] at h
    | some x =>
      simp only [hr, Option.map_some, Option.some.injEq, Prod.mk.injEq] at h
      have hl' : 1 ≤ n.length := List.length_pos_iff.mpr hn
      refine ⟨by unfold Component.toNumber; rw [hr, h.2]; rfl, ?_⟩
      rw [Name.dropLast, if_pos hl']; exact h.1

theorem announced_appendNumber (p : Name) (x : Nat) (hx : x < U64) : announced (Name.appendNumber p x) = some (p, x) := by
  unfold announced Name.appendNumber
  rw [List.getLast?_append, List.getLast?_singleton]
  simp only [Option.some_or, readNni_nniBytes x hx, Option.map_some]
  simp

/-- What an observer of a producer can relate: its table, its segment store, its output, the
replies published and the numbers published by the application. -/
structure View where
  base : Base
  pub : SegPub
  log : List Out
  replies : List (Name × Bytes × Nat)
  made : List (Name × Nat)
  now : Nat

/-- Which actions are permitted. -/
structure Rules where
  limit : Nat
  version : Nat → Nat
  interest : Base → Name → Nat → Prop
  remove : Name → Prop
  publish : Name → Nat → Prop
  data : Base → List (Name × Nat) → Name → Bytes → Prop
  nack : Base → Data → Prop
  merge : List MissingDataInfo → Prop

/-- Processing received names one after the other, with the notifications this produces. -/
inductive MergeRel : Base → List MissingDataInfo → Base → Prop
  | nil (b : Base) : MergeRel b [] b
  | newer {b b1 b2 : Base} {us : List MissingDataInfo} (p : Name) (q face : Nat) :
      q < U64 → Full.isNewer b p q = true →
      (b.addUserNode p).2.updateSeqNo p q = .ok b1 → MergeRel b1 us b2 →
      MergeRel b (⟨p, ((b.prefixes.find p).getD 0 + 1) % U64, q, face⟩ :: us) b2

inductive Micro (ρ : Rules) (v : View) : View → Prop
  | add (p : Name) : Micro ρ v { v with base := (v.base.addUserNode p).2 }
  | remove (p : Name) (b' : Base) : ρ.remove p → v.base.removeUserNode p = .ok b' → Micro ρ v { v with base := b' }
  | publish (p : Name) (q : Nat) (b' : Base) : ρ.publish p q → q < U64 → (v.base.prefixes.find p).isSome → v.base.updateSeqNo p q = .ok b' →
      Micro ρ v { v with base := b', made := v.made ++ [(p, q)] }
  | merge (us : List MissingDataInfo) (b' : Base) : ρ.merge us → us ≠ [] → MergeRel v.base us b' →
      Micro ρ v { v with base := b', log := v.log ++ [.update us] }
  | interest (n : Name) (lt : Nat) : ρ.interest v.base n lt → Micro ρ v { v with log := v.log ++ [.interest n lt] }
  | stored (n : Name) (d : Data) : v.pub.replyFromStore n = some d → Micro ρ v { v with log := v.log ++ [.data d] }
  | nack (d : Data) : ρ.nack v.base d → Micro ρ v { v with log := v.log ++ [.data d] }
  | data (now : Nat) (iname dname : Name) (buf : Bytes) (fr : Nat) (r : SegPub × List Data) :
      ρ.data v.base v.made dname buf → v.pub.publish ρ.limit now (ρ.version v.replies.length) iname dname buf fr = .ok r →
      now = v.now →
      Micro ρ v { v with pub := r.1, log := v.log ++ r.2.map Out.data, replies := v.replies ++ [(dname, buf, fr)] }
  | fire (t : Nat) : t = v.now → Micro ρ v { v with pub := v.pub.fire t }
  | tick (t : Nat) : v.now ≤ t → Micro ρ v { v with now := t }

abbrev Micros (ρ : Rules) : View → View → Prop := Relation.ReflTransGen (Micro ρ)

theorem Micros.refl {ρ : Rules} {v : View} : Micros ρ v v := Relation.ReflTransGen.refl

theorem Micros.trans {ρ : Rules} {a b c : View} (h : Micros ρ a b) (h' : Micros ρ b c) : Micros ρ a c :=
  Relation.ReflTransGen.trans h h'

theorem Micros.one {ρ : Rules} {a b : View} (h : Micro ρ a b) : Micros ρ a b := Relation.ReflTransGen.single h

theorem Micros.of_eq {ρ : Rules} {a b : View} (h : b = a) : Micros ρ a b := h ▸ Micros.refl

/-- `ρ` permits less than `ρ'`. -/
structure Rules.Le (ρ ρ' : Rules) : Prop where
  limit : ρ.limit = ρ'.limit
  version : ρ.version = ρ'.version
  interest : ∀ b n t, ρ.interest b n t → ρ'.interest b n t
  remove : ∀ p, ρ.remove p → ρ'.remove p
  publish : ∀ p q, ρ.publish p q → ρ'.publish p q
  data : ∀ b m n x, ρ.data b m n x → ρ'.data b m n x
  nack : ∀ b d, ρ.nack b d → ρ'.nack b d
  merge : ∀ us, ρ.merge us → ρ'.merge us

theorem Micro.mono {ρ ρ' : Rules} (hle : ρ.Le ρ') {a b : View} (h : Micro ρ a b) : Micro ρ' a b := by
  cases h with
  | add p => exact .add p
  | remove p b' hp h => exact .remove p b' (hle.remove p hp) h
  | publish p q b' hp hq hreg h => exact .publish p q b' (hle.publish p q hp) hq hreg h
  | merge us b' hm hu h => exact .merge us b' (hle.merge _ hm) hu h
  | interest n lt h => exact .interest n lt (hle.interest _ _ _ h)
  | stored n d h => exact .stored n d h
  | nack d h => exact .nack d (hle.nack _ _ h)
  | data now iname dname buf fr r hd h hn =>
    exact .data now iname dname buf fr r (hle.data _ _ _ _ hd) (hle.limit ▸ hle.version ▸ h) hn
  | fire t h => exact .fire t h
  | tick t h => exact .tick t h

theorem Micros.mono {ρ ρ' : Rules} (hle : ρ.Le ρ') {a b : View} (h : Micros ρ a b) : Micros ρ' a b := by
  induction h with
  | refl => exact Micros.refl
  | tail _ h ih => exact ih.tail (h.mono hle)

theorem Micro.made {ρ : Rules} {a b : View} (h : Micro ρ a b) : a.made <+: b.made := by
  cases h with
  | publish p q b' hp hq hreg h => exact List.prefix_append _ _
  | _ => exact List.prefix_refl _

theorem Micros.made {ρ : Rules} {a b : View} (h : Micros ρ a b) : a.made <+: b.made := by
  induction h with
  | refl => exact List.prefix_refl _
  | tail _ h ih => exact ih.trans h.made

theorem MergeRel.steps {R : Name → Prop} {b b' : Base} {us : List MissingDataInfo} (h : MergeRel b us b') :
    Base.Steps R b b' := by
  induction h with
  | nil b => exact Base.Steps.refl
  | newer p q face hq _ h1 _ ih =>
    exact ((Relation.ReflTransGen.single (.add p)).tail (.update p q hq h1)).trans ih

theorem Micro.steps {ρ : Rules} {a b : View} (h : Micro ρ a b) : Base.Steps ρ.remove a.base b.base := by
  cases h with
  | add p => exact Relation.ReflTransGen.single (.add p)
  | remove p b' hp h => exact Relation.ReflTransGen.single (.remove p hp h)
  | publish p q b' hp hq hreg h => exact Relation.ReflTransGen.single (.update p q hq h)
  | merge us b' hm hu h => exact h.steps
  | interest n lt h => exact Base.Steps.refl
  | stored n d h => exact Base.Steps.refl
  | nack d h => exact Base.Steps.refl
  | data now iname dname buf fr r hd h => exact Base.Steps.refl
  | fire t => exact Base.Steps.refl
  | tick t => exact Base.Steps.refl

theorem Micros.steps {ρ : Rules} {a b : View} (h : Micros ρ a b) : Base.Steps ρ.remove a.base b.base := by
  induction h with
  | refl => exact Base.Steps.refl
  | tail _ h ih => exact ih.trans h.steps

/-! ### The actions of a FullProducer -/

namespace Full

def view (s : Full) : View := ⟨s.base, s.pub, s.log, s.replies, s.made, s.now⟩

/-- The buffer is the compressed encoding of names that all satisfy `P`. -/
def Carries (cfg : Cfg) (P : Name → Prop) (buf : Bytes) : Prop :=
  ∃ content, content ≠ [] ∧ (∀ n ∈ content, P n) ∧ cfg.contentCodec.compress (encodeNames content) = some buf

/-- Rules without publications, with data constrained by `P`. -/
def rules (cfg : Cfg) (P : Base → List (Name × Nat) → Name → Prop) (remove : Name → Prop)
    (pub : Name → Nat → Prop) (merge : List MissingDataInfo → Prop) :
    Rules where
  limit := cfg.imsLimit
  version := cfg.version
  interest := fun b n lt => syncName cfg b = .ok n ∧ lt = cfg.lifetime
  remove := remove
  publish := pub
  data := fun b m _ buf => Carries cfg (P b m) buf
  nack := fun b d => nackData cfg b cfg.syncPrefix = .ok d
  merge := merge

theorem sendSyncInterest_micro {cfg : Cfg} {ρ : Rules} (hρ : ∀ b n, syncName cfg b = .ok n → ρ.interest b n cfg.lifetime)
    {s s' : Full} (h : sendSyncInterest cfg s = .ok s') : Micros ρ s.view s'.view := by
  rcases sendSyncInterest_ok h with ⟨_, rfl⟩ | ⟨_, name, hn, ⟨_, _, rfl⟩ | ⟨_, rfl⟩⟩
  · exact Micros.refl
  · exact Micros.refl
  · exact Micros.one (.interest name cfg.lifetime (hρ _ _ hn))

theorem sendSyncData_micro {cfg : Cfg} {P : Base → List (Name × Nat) → Name → Prop} {R : Name → Prop}
    {L : Name → Nat → Prop} {M : List MissingDataInfo → Prop}
    {s s' : Full} {name : Name} {content : List Name} {fr : Nat} (hne : content ≠ [])
    (hc : ∀ n ∈ content, P s.base s.made n)
    (h : sendSyncData cfg s name (encodeNames content) fr = .ok s') :
    Micros (rules cfg P R L M) s.view s'.view := by
  unfold sendSyncData at h
  simp only [Res.bind_eq_ok] at h
  obtain ⟨buf, hbuf, s1, h1, h2⟩ := h
  have hbuf' : cfg.contentCodec.compress (encodeNames content) = some buf := by
    unfold Res.ofOption at hbuf
    split at hbuf
    · cases hbuf; assumption
    · simp at hbuf
  have hv : ∀ c : Prop, ∀ [Decidable c], (if c then { s.stopFetcher with outstanding := [] } else s).view = s.view := by
    intro c _; split <;> rfl
  obtain ⟨r, hr, rfl⟩ := publish_ok h1
  have m1 : Micros (rules cfg P R L M) s.view
      ⟨s.base, r.1, s.log ++ r.2.map Out.data, s.replies ++ [(name, buf, fr)], s.made, s.now⟩ := by
    have hpub : s.pub.publish cfg.imsLimit s.now (cfg.version s.replies.length) name name buf fr = .ok r := by
      split at hr <;> exact hr
    exact Micros.one (.data s.now name name buf fr r ⟨content, hne, hc, hbuf'⟩ hpub rfl)
  refine m1.trans ?_
  have hv2 : ∀ (x : Full) (p : SegPub) (n : List (Name × Bytes × Nat)) (l : List Out), x.base = s.base →
      x.made = s.made → x.now = s.now →
      ({ x with pub := p, replies := n, log := l } : Full).view = ⟨s.base, p, l, n, s.made, s.now⟩ := by
    intro x p n l hx hm hn; simp only [view, hx, hm, hn]
  generalize hx : (if (decide (s.outstanding = name) && s.fetcher.isSome) = true then
      { s.stopFetcher with outstanding := [] } else s) = x at *
  have hxb : x.base = s.base := by rw [← hx]; split <;> rfl
  have hxl : x.log = s.log := by rw [← hx]; split <;> rfl
  have hxv : x.replies = s.replies := by rw [← hx]; split <;> rfl
  have hxm : x.made = s.made := by rw [← hx]; split <;> rfl
  have hxn : x.now = s.now := by rw [← hx]; split <;> rfl
  split at h2
  · have := sendSyncInterest_micro (ρ := rules cfg P R L M) (fun b n hn => ⟨hn, rfl⟩) h2
    rw [hv2 x _ _ _ hxb hxm hxn, hxl, hxv] at this
    exact this
  · cases h2
    apply Micros.of_eq
    rw [hv2 x _ _ _ hxb hxm hxn, hxl, hxv]

theorem markWaiting_view (s : Full) (n : Name) : (s.markWaiting n).view = s.view := by
  rw [markWaiting_eq]; rfl

theorem scheduleProcess_view (cfg : Cfg) (s : Full) : (scheduleProcess cfg s).view = s.view := by
  rw [scheduleProcess_eq]; rfl

theorem waitOrGiveUp_view (cfg : Cfg) (s : Full) (i : Interest) (t : Bool) :
    (waitOrGiveUp cfg s i t).1.view = s.view := by
  unfold waitOrGiveUp
  split
  · split
    · simp only [scheduleProcess_view]; rfl
    · rfl
  · split
    · split
      · simp only [markWaiting_view]
      · rfl
    · rfl

theorem allContent_live {b : Base} (hb : b.Inv) {n : Name} : n ∈ allContent b ↔ IsLive b.prefixes.find n := by
  unfold allContent
  simp only [List.mem_map, List.mem_filter, decide_eq_true_eq]
  constructor
  · rintro ⟨⟨p, s⟩, ⟨hm, hs⟩, rfl⟩
    exact ⟨p, s, (NMap.find_iff hb.sorted).mpr hm, hs, rfl⟩
  · rintro ⟨p, s, hp, hs, rfl⟩
    exact ⟨(p, s), ⟨NMap.mem_of_find hp, hs⟩, rfl⟩

theorem dropLast_appendNumber (p : Name) (s : Nat) : Name.dropLast (Name.appendNumber p s) 1 = p := by
  unfold Name.dropLast Name.appendNumber
  rw [if_pos (by simp)]
  simp

/-- `m_prefixes[p]` of a registered prefix changes nothing. -/
theorem index_of_find {b : Base} {p : Name} {s : Nat} (h : b.prefixes.find p = some s) : b.index p = (s, b) := by
  unfold Base.index; rw [h]

theorem isFutureHash_of_find {b : Base} {p : Name} {s : Nat} (neg : List U32) (h : b.prefixes.find p = some s) :
    isFutureHash b p neg = (decide (nameHash (Name.appendNumber p ((s + 1) % U64)) ∈ neg), b) := by
  unfold isFutureHash
  rw [index_of_find h]

/-- The content of a reply: the live names behind the positive hashes, without the ones the requester is
ahead of; the table is not changed. -/
theorem collect_eq {b : Base} (hb : b.Inv) (neg : List U32) (hs : List U32) : ∀ (acc : List Name),
    ∃ l, collect neg b hs acc = (acc ++ l, b) ∧
      ∀ n, n ∈ l ↔ ∃ h ∈ hs, ∃ p s, b.biMap.findLeft h = some n ∧ b.prefixes.find p = some s ∧ s ≠ 0 ∧
        n = Name.appendNumber p s ∧ nameHash (Name.appendNumber p ((s + 1) % U64)) ∉ neg := by
  induction hs with
  | nil => intro acc; exact ⟨[], by simp [collect], by simp⟩
  | cons h hs ih =>
    intro acc
    unfold collect
    cases hf : b.biMap.findLeft h with
    | none =>
      obtain ⟨l, h1, h2⟩ := ih acc
      refine ⟨l, h1, fun n => ?_⟩
      rw [h2 n]
      simp [hf]
    | some n =>
      obtain ⟨_, p, s, hp, hs0, hn⟩ := hb.bm _ _ (BiMap.findLeft_some hf)
      subst hn
      simp only [dropLast_appendNumber, index_of_find hp, if_pos hs0, isFutureHash_of_find neg hp]
      by_cases hfut : nameHash (Name.appendNumber p ((s + 1) % U64)) ∈ neg
      · simp only [hfut, decide_true, if_true]
        obtain ⟨l, h1, h2⟩ := ih acc
        refine ⟨l, h1, fun n => ?_⟩
        rw [h2 n]
        constructor
        · rintro ⟨h', hh, rest⟩; exact ⟨h', List.mem_cons_of_mem _ hh, rest⟩
        · rintro ⟨h', hh, p', s', hf', hp', hs', rfl, hnf⟩
          rcases List.mem_cons.mp hh with rfl | hh
          · exfalso
            rw [hf] at hf'
            have heq := Option.some.inj hf'
            obtain ⟨rfl, rfl⟩ := appendNumber_inj' (hb.lt _ _ hp) (hb.lt _ _ hp') heq
            exact hnf hfut
          · exact ⟨h', hh, p', s', hf', hp', hs', rfl, hnf⟩
      · simp only [hfut, decide_false, Bool.false_eq_true, if_false]
        obtain ⟨l, h1, h2⟩ := ih (acc ++ [Name.appendNumber p s])
        refine ⟨Name.appendNumber p s :: l, by rw [h1]; simp, fun n => ?_⟩
        rw [List.mem_cons, h2 n]
        constructor
        · rintro (rfl | ⟨h', hh, rest⟩)
          · exact ⟨h, by simp, p, s, hf, hp, hs0, rfl, hfut⟩
          · exact ⟨h', List.mem_cons_of_mem _ hh, rest⟩
        · rintro ⟨h', hh, p', s', hf', hp', hs', rfl, hnf⟩
          rcases List.mem_cons.mp hh with rfl | hh
          · left
            rw [hf] at hf'
            exact (Option.some.inj hf').symm
          · exact Or.inr ⟨h', hh, p', s', hf', hp', hs', rfl, hnf⟩

/-- Only live names may be sent. -/
def liveP (b : Base) (_ : List (Name × Nat)) (n : Name) : Prop := IsLive b.getSeqNo n

theorem onUndecodable_micro {cfg : Cfg} {R : Name → Prop} {L : Name → Nat → Prop} {M : List MissingDataInfo → Prop} {s s' : Full}
    (hs : s.base.Inv) {i : Interest} {t : Bool} {n : Nat} {d : IBLTDiff}
    (h : onUndecodable cfg s i t n d = .ok s') : Micros (rules cfg liveP R L M) s.view s'.view := by
  unfold onUndecodable at h
  split at h
  · have hw := waitOrGiveUp_view cfg s i t
    generalize waitOrGiveUp cfg s i t = x at h hw
    obtain ⟨s1, g⟩ := x
    simp only at hw
    cases g
    · simp only [Res.ok.injEq] at h; subst h; exact Micros.of_eq hw
    · simp only at h
      have := sendSyncInterest_micro (ρ := rules cfg liveP R L M) (fun b n hn => ⟨hn, rfl⟩) h
      rw [hw] at this
      exact this
  · split at h
    · cases h; exact Micros.refl
    · simp only at h
      split at h
      · cases h; exact Micros.of_eq (markWaiting_view _ _)
      · rename_i hne
        simp only [Res.bind_eq_ok, Res.ok.injEq] at h
        obtain ⟨s1, h1, rfl⟩ := h
        have := sendSyncData_micro (P := liveP) (R := R) (L := L) (M := M)
          (by simpa using hne) (fun n hn => (allContent_live hs).mp hn) h1
        rw [markWaiting_view]
        exact this

theorem onDecoded_micro {cfg : Cfg} {R : Name → Prop} {L : Name → Nat → Prop} {M : List MissingDataInfo → Prop} {s s' : Full}
    (hs : s.base.Inv) {i : Interest} {t : Bool} {ib : Table} {d : IBLTDiff}
    (h : onDecoded cfg s i t ib d = .ok s') : Micros (rules cfg liveP R L M) s.view s'.view := by
  unfold onDecoded at h
  split at h
  · simp only [Res.ok.injEq] at h
    subst h
    apply Micros.of_eq
    split
    · rw [markWaiting_view]; rfl
    · rfl
  · split at h
    · simp only [Res.ok.injEq] at h
      subst h
      exact Micros.of_eq (waitOrGiveUp_view _ _ _ _)
    · obtain ⟨l, h1, h2⟩ := collect_eq hs d.negative d.positive []
      rw [h1] at h
      simp only [List.nil_append] at h
      split at h
      · cases h; exact Micros.refl
      · rename_i hne
        simp only [Res.bind_eq_ok, Res.ok.injEq] at h
        obtain ⟨s1, h3, rfl⟩ := h
        rw [markWaiting_view]
        refine sendSyncData_micro (P := liveP) (R := R) (L := L) (M := M) (s := s) (by simpa using hne) ?_ h3
        intro n hn
        obtain ⟨_, _, p, x, _, hp, hx, rfl, _⟩ := (h2 n).mp hn
        exact ⟨p, x, hp, hx, rfl⟩

theorem onSyncInterest_micro {cfg : Cfg} {R : Name → Prop} {L : Name → Nat → Prop} {M : List MissingDataInfo → Prop} {s s' : Full}
    (hs : s.base.Inv) {i : Interest} {t : Bool} (h : onSyncInterest cfg s i t = .ok s') :
    Micros (rules cfg liveP R L M) s.view s'.view := by
  rcases onSyncInterest_cases h with ⟨d, hd, rfl⟩ | ⟨_, ⟨d, _, hd, rfl⟩ | rfl | ⟨c2, c1, num, ib, df, _, _, _, _, _, _, h1⟩⟩
  · exact Micros.one (.stored i.name d hd)
  · exact Micros.one (.nack d hd)
  · exact Micros.refl
  · rcases h1 with ⟨_, h1⟩ | ⟨_, h1⟩
    · exact onUndecodable_micro hs h1
    · exact onDecoded_micro hs h1

theorem processOne_micro {cfg : Cfg} {R : Name → Prop} {L : Name → Nat → Prop} {M : List MissingDataInfo → Prop} {s s' : Full}
    (hs : s.base.Inv) {n : Name} (h : processOne cfg s n = .ok s') :
    Micros (rules cfg liveP R L M) s.view s'.view := by
  unfold processOne at h
  cases hw : s.waiting.find n with
  | none => simp only [hw, Res.ok.injEq] at h; subst h; exact Micros.refl
  | some w =>
    simp only [hw] at h
    split at h
    · cases h; exact Micros.refl
    · simp only [Res.bind_eq_ok] at h
      obtain ⟨s1, h1, h2⟩ := h
      have h3 := onSyncInterest_micro (R := R) (L := L) (M := M)
        (s := { s with waiting := s.waiting.set n { w with numTries := w.numTries + 1 } }) hs h1
      refine h3.trans ?_
      cases hw2 : s1.waiting.find n with
      | none => simp only [hw2, Res.ok.injEq] at h2; subst h2; exact Micros.refl
      | some w2 =>
        simp only [hw2] at h2
        split at h2
        · cases h2; exact Micros.refl
        · cases h2; exact Micros.refl

theorem processWaiting_micro {cfg : Cfg} {R : Name → Prop} {L : Name → Nat → Prop} {M : List MissingDataInfo → Prop} {s s' : Full}
    (hs : s.base.Inv) (h : processWaiting cfg s = .ok s') : Micros (rules cfg liveP R L M) s.view s'.view := by
  have := foldRes_rel (Q := fun a b : Full => a.base.Inv → b.base.Inv ∧ Micros (rules cfg liveP R L M) a.view b.view)
    (fun _ hi => ⟨hi, Micros.refl⟩)
    (fun _ _ _ h1 h2 hi => ⟨(h2 (h1 hi).1).1, (h1 hi).2.trans (h2 (h1 hi).1).2⟩) _
    (fun a x b _ hx hi => ⟨(processOne_steps (R := fun _ => True) hx).inv hi, processOne_micro hi hx⟩) h
  exact (this hs).2

/-- `p/q` with `q` at most the current number of `p`. -/
def Known (b : Base) (n : Name) : Prop := ∃ p q cur, b.getSeqNo p = some cur ∧ q ≤ cur ∧ n = Name.appendNumber p q

/-- Names a producer may send: live names, and names the application published that are not ahead of the
table. -/
def knownP (b : Base) (m : List (Name × Nat)) (n : Name) : Prop :=
  liveP b m n ∨ Known b n ∧ ∃ p q, (p, q) ∈ m ∧ q < U64 ∧ n = Name.appendNumber p q

theorem known_of_live {b : Base} {m : List (Name × Nat)} {n : Name} (h : liveP b m n) : Known b n := by
  obtain ⟨p, s, hp, _, rfl⟩ := h
  exact ⟨p, s, s, hp, le_rfl, rfl⟩

theorem known_of {b : Base} {m : List (Name × Nat)} {n : Name} (h : knownP b m n) : Known b n :=
  h.elim known_of_live And.left

theorem knownP.mono {b : Base} {m m' : List (Name × Nat)} {n : Name} (h : knownP b m n) (hm : m <+: m') :
    knownP b m' n :=
  h.imp id (fun ⟨h1, p, q, h2, h3⟩ => ⟨h1, p, q, hm.subset h2, h3⟩)

theorem knownP_of_live {b : Base} {m : List (Name × Nat)} {n : Name} (h : liveP b m n) : knownP b m n := Or.inl h

/-- A live name, or the announced one, whose number is at most the current one of its prefix. -/
def annP (u : Name) (b : Base) (m : List (Name × Nat)) (n : Name) : Prop := liveP b m n ∨ (n = u ∧ knownP b m n)

theorem satisfyOne_micro {cfg : Cfg} {R : Name → Prop} {L : Name → Nat → Prop} {M : List MissingDataInfo → Prop} {u : Name} {s s' : Full}
    (hs : s.base.Inv) (hu : knownP s.base s.made u) {e : Name × FPending} (h : satisfyOne cfg u s e = .ok s') :
    Micros (rules cfg (annP u) R L M) s.view s'.view := by
  unfold satisfyOne at h
  simp only [Res.bind_eq_ok, Res.ok.injEq] at h
  obtain ⟨d, _, s1, h1, rfl⟩ := h
  have hmem : ∀ n ∈ satisfyContent s.base d.positive u, annP u s.base s.made n := by
    intro n hn
    have hf : ∀ n ∈ d.positive.filterMap s.base.biMap.findLeft, liveP s.base s.made n := by
      intro n hn
      obtain ⟨x, _, hx⟩ := List.mem_filterMap.mp hn
      exact (hs.bm _ _ (BiMap.findLeft_some hx)).2
    unfold satisfyContent at hn
    simp only at hn
    split at hn
    · exact Or.inl (hf n hn)
    · rcases List.mem_append.mp hn with hn | hn
      · exact Or.inl (hf n hn)
      · rw [List.mem_singleton.mp hn]; exact Or.inr ⟨rfl, hu⟩
  have hne : satisfyContent s.base d.positive u ≠ [] := by
    unfold satisfyContent
    simp only
    split
    · rename_i hm; exact List.ne_nil_of_mem hm
    · simp
  have := sendSyncData_micro (P := annP u) (R := R) (L := L) (M := M) hne hmem h1
  exact this

theorem satisfyPending_micro {cfg : Cfg} {R : Name → Prop} {L : Name → Nat → Prop} {M : List MissingDataInfo → Prop} {u : Name} {s s' : Full}
    (hs : s.base.Inv) (hu : knownP s.base s.made u) (h : satisfyPending cfg s u = .ok s') :
    Micros (rules cfg (annP u) R L M) s.view s'.view := by
  have := foldRes_rel (Q := fun a b : Full => (a.base = s.base ∧ knownP s.base a.made u) →
      (b.base = s.base ∧ knownP s.base b.made u) ∧ Micros (rules cfg (annP u) R L M) a.view b.view)
    (fun _ hi => ⟨hi, Micros.refl⟩)
    (fun _ _ _ h1 h2 hi => ⟨(h2 (h1 hi).1).1, (h1 hi).2.trans (h2 (h1 hi).1).2⟩) _
    (fun a x b _ hx hi => by
      have hm := satisfyOne_micro (R := R) (L := L) (M := M) (hi.1.symm ▸ hs) (hi.1.symm ▸ hi.2) hx
      exact ⟨⟨(satisfyOne_core hx).trans hi.1, hi.2.mono hm.made⟩, hm⟩) h
  exact (this ⟨rfl, hu⟩).2

theorem rules_le {cfg : Cfg} {P P' : Base → List (Name × Nat) → Name → Prop} {R R' : Name → Prop}
    {L L' : Name → Nat → Prop} {M M' : List MissingDataInfo → Prop}
    (hP : ∀ b m n, P b m n → P' b m n) (hR : ∀ p, R p → R' p) (hL : ∀ p q, L p q → L' p q) (hM : ∀ us, M us → M' us) :
    (rules cfg P R L M).Le (rules cfg P' R' L' M') where
  limit := rfl
  version := rfl
  interest := fun _ _ _ h => h
  remove := hR
  publish := hL
  data := fun b m _ _ ⟨c, h1, h2, h3⟩ => ⟨c, h1, fun n hn => hP b m n (h2 n hn), h3⟩
  nack := fun _ _ h => h
  merge := hM

theorem updateSeqNo_known {b b' : Base} {p : Name} {cur q : Nat} (hp : b.prefixes.find p = some cur)
    (h : b.updateSeqNo p q = .ok b') : Known b' (Name.appendNumber p q) := by
  refine ⟨p, q, max cur q, ?_, by omega, rfl⟩
  rw [Base.getSeqNo, Base.find_updateSeqNo h, if_pos rfl, hp]; rfl

/-- publishName: the table changes, then parked Interests are answered with live names or the published
one. -/
theorem publishName_micro {cfg : Cfg} {R : Name → Prop} {L : Name → Nat → Prop} {M : List MissingDataInfo → Prop} {s s' : Full}
    (hs : s.base.Inv) {p : Name} {seq : Option Nat} (hL : ∀ q, (∀ x, seq = some x → q = x % 2 ^ 64) → L p q) (h : publishName cfg s p seq = .ok s') :
    Micros (rules cfg knownP R L M) s.view s'.view := by
  unfold publishName at h
  cases hp : s.base.prefixes.find p with
  | none => simp only [hp, Res.ok.injEq] at h; subst h; exact Micros.refl
  | some cur =>
    simp only [hp, Res.bind_eq_ok] at h
    obtain ⟨b, h1, h2⟩ := h
    have hlt := newSeq_lt seq cur
    have m1 : Micro (rules cfg knownP R L M) s.view ⟨b, s.pub, s.log, s.replies, s.made ++ [(p, newSeq seq cur)], s.now⟩ :=
      .publish p (newSeq seq cur) b (hL _ (by rintro x rfl; rfl)) hlt (by simp [view, hp]) h1
    have m2 := satisfyPending_micro (R := R) (L := L) (M := M) 
      (s := { s with base := b, waitOut := false, made := s.made ++ [(p, newSeq seq cur)] })
      (Base.inv_update hs hlt h1) (Or.inr ⟨updateSeqNo_known hp h1, p, _, by simp, hlt, rfl⟩) h2
    refine (Micros.one m1).trans (m2.mono (rules_le ?_ (fun _ h => h) (fun _ _ h => h) (fun _ => id)))
    rintro b m n (h | ⟨_, h⟩)
    · exact knownP_of_live h
    · exact h

theorem call_micro {cfg : Cfg} {M : List MissingDataInfo → Prop} {s s' : Full} (hs : s.base.Inv) {c : Call} (h : call cfg s c = .ok s') :
    Micros (rules cfg knownP (fun p => c.Removes p) (fun p q => c.PublishesAs p q) M) s.view s'.view := by
  cases c with
  | addUserNode p =>
    simp only [call, Res.ok.injEq] at h
    subst h
    exact Micros.one (.add p)
  | removeUserNode p =>
    simp only [call, Res.bind_eq_ok, Res.ok.injEq] at h
    obtain ⟨b, h1, rfl⟩ := h
    exact Micros.one (.remove p b rfl h1)
  | publishName p q => exact publishName_micro hs (fun _ hx => ⟨rfl, hx⟩) h

theorem calls_micro {cfg : Cfg} {M : List MissingDataInfo → Prop} {s s' : Full} (hs : s.base.Inv) {cs : List Call}
    (h : foldRes (call cfg) s cs = .ok s') :
    Micros (rules cfg knownP (fun p => ∃ c ∈ cs, c.Removes p) (fun p q => ∃ c ∈ cs, c.PublishesAs p q) M) s.view s'.view := by
  have := foldRes_rel (Q := fun a b : Full => a.base.Inv → b.base.Inv ∧
      Micros (rules cfg knownP (fun p => ∃ c ∈ cs, c.Removes p) (fun p q => ∃ c ∈ cs, c.PublishesAs p q) M) a.view b.view)
    (fun _ hi => ⟨hi, Micros.refl⟩)
    (fun _ _ _ h1 h2 hi => ⟨(h2 (h1 hi).1).1, (h1 hi).2.trans (h2 (h1 hi).1).2⟩) cs
    (fun a c b hc hx hi => ⟨(call_steps hx).inv hi, (call_micro hi hx).mono
      (rules_le (fun _ _ _ h => h) (fun _ h => ⟨c, hc, h⟩) (fun _ _ h => ⟨c, hc, h⟩) (fun _ => id))⟩) h
  exact (this hs).2

theorem merge_rel {face : Nat} (ns : List Name) : ∀ {b : Base} {acc : List MissingDataInfo}
    {r : List MissingDataInfo × Base}, merge face b ns acc = .ok r → ∃ us, r.1 = acc ++ us ∧ MergeRel b us r.2 ∧
      ∀ u ∈ us, ∃ n ∈ ns, announced n = some (u.pfx, u.highSeq) := by
  induction ns with
  | nil => intro b acc r h; simp only [merge, Res.ok.injEq] at h; subst h; exact ⟨[], by simp, .nil b, by simp⟩
  | cons n ns ih =>
    intro b acc r h
    unfold merge at h
    simp only [Res.bind_eq_ok] at h
    obtain ⟨c, hc, q, hq, h⟩ := h
    have hx := Base.index_eq b (Name.dropLast n 1)
    generalize b.index (Name.dropLast n 1) = x at h hx
    obtain ⟨cur, b1⟩ := x
    simp only at h hx
    split at h
    · rename_i hnew
      simp only [Res.bind_eq_ok] at h
      obtain ⟨b2, h2, h3⟩ := h
      obtain ⟨us, h4, h5, h6⟩ := ih h3
      refine ⟨⟨Name.dropLast n 1, ((b.prefixes.find (Name.dropLast n 1)).getD 0 + 1) % U64, q, face⟩ :: us, ?_, ?_, ?_⟩
      · rw [h4, hx.1]; simp
      · rw [hx.2] at h2
        exact .newer _ q face (toNumber_lt hq) hnew h2 h5
      · intro u hu
        rcases List.mem_cons.mp hu with rfl | hu
        · exact ⟨n, List.mem_cons_self, (announced_of hc hq).1⟩
        · obtain ⟨n', hn', hx⟩ := h6 u hu
          exact ⟨n', List.mem_cons_of_mem _ hn', hx⟩
    · obtain ⟨us, h4, h5, h6⟩ := ih h
      refine ⟨us, h4, h5, fun u hu => ?_⟩
      obtain ⟨n', hn', hx⟩ := h6 u hu
      exact ⟨n', List.mem_cons_of_mem _ hn', hx⟩

theorem MergeRel_nil {b b' : Base} (h : MergeRel b [] b') : b' = b := by
  cases h; rfl

/-- Notifications may only contain what was announced in the reply. -/
def MergeOk (cfg : Cfg) (buf : Bytes) (us : List MissingDataInfo) : Prop :=
  ∃ ns, decodeReply cfg buf = some ns ∧ ∀ u ∈ us, ∃ n ∈ ns, announced n = some (u.pfx, u.highSeq)

theorem onSyncData_micro {cfg : Cfg} {s s' : Full} (hs : s.base.Inv) {n : Name} {buf : Bytes} {acts : List Call}
    (h : onSyncData cfg s n buf acts = .ok s') :
    Micros (rules cfg knownP (fun p => ∃ c ∈ acts, c.Removes p) (fun p q => ∃ c ∈ acts, c.PublishesAs p q) (MergeOk cfg buf))
      s.view s'.view := by
  unfold onSyncData at h
  simp only at h
  split at h
  · cases h; exact Micros.refl
  · rename_i hdec
    simp only [Res.bind_eq_ok] at h
    obtain ⟨r, h1, h2⟩ := h
    obtain ⟨us, hu, hm, hann⟩ := merge_rel _ h1
    rw [List.nil_append] at hu
    split at h2
    · rename_i he
      rw [hu, List.isEmpty_iff] at he
      subst he
      have hb := MergeRel_nil hm
      cases h2
      apply Micros.of_eq
      simp only [view, hb]
      rfl
    · rename_i he
      simp only [Res.bind_eq_ok] at h2
      obtain ⟨s1, h3, h4⟩ := h2
      rw [hu] at he h3
      have hne : us ≠ [] := by simpa using he
      have m1 : Micro (rules cfg knownP (fun p => ∃ c ∈ acts, c.Removes p) (fun p q => ∃ c ∈ acts, c.PublishesAs p q)
          (MergeOk cfg buf))
          s.view ⟨r.2, s.pub, s.log ++ [.update us], s.replies, s.made, s.now⟩ := .merge us r.2 ⟨_, hdec, hann⟩ hne hm
      have hinv : r.2.Inv := (hm.steps (R := fun _ => True)).inv hs
      have m2 := calls_micro (M := MergeOk cfg buf) (s := ({ s.deletePending n with base := r.2 } : Full).emit (.update us)) hinv h3
      have hinv1 : s1.base.Inv := (calls_steps h3).inv hinv
      have m3 := processWaiting_micro (R := fun p => ∃ c ∈ acts, c.Removes p) (L := fun p q => ∃ c ∈ acts, c.PublishesAs p q)
        (M := MergeOk cfg buf) (s := { s1 with
          sched := some (s1.now + cfg.jitter s1.draws, .renew), draws := s1.draws + 1, waitOut := false }) hinv1 h4
      exact (Micros.one m1).trans (m2.trans (m3.mono
        (rules_le (fun _ _ _ => knownP_of_live) (fun _ h => h) (fun _ _ h => h) (fun _ => id))))

/-- What an event of a FullProducer may do. -/
def opRules (cfg : Cfg) (op : Op) : Rules :=
  rules cfg knownP (fun p => op.Removes p) (fun p q => op.PublishesAs p q) (fun us => ∃ buf acts, op = .complete buf acts ∧ MergeOk cfg buf us)

theorem step_micro {cfg : Cfg} {s s' : Full} (hs : s.base.Inv) {op : Op} (h : step cfg s op = .ok s') :
    Micros (opRules cfg op) s.view s'.view := by
  have live_le : ∀ op, (rules cfg liveP (fun p => op.Removes p) (fun p q => op.PublishesAs p q) (fun _ => False)).Le (opRules cfg op) :=
    fun op => rules_le (fun _ _ _ => knownP_of_live) (fun _ h => h) (fun _ _ h => h) (fun _ => False.elim)
  cases op with
  | call c =>
    exact (call_micro (M := fun _ => False) hs h).mono (rules_le (fun _ _ _ h => h) (fun _ h => h) (fun _ _ h => h) (fun _ => False.elim))
  | recvInterest i =>
    simp only [step] at h
    split at h
    · exact (onSyncInterest_micro hs h).mono (live_le _)
    · cases h; exact Micros.refl
  | segment f =>
    simp only [step] at h
    split at h
    · cases h; split <;> exact Micros.refl
    · cases h; exact Micros.refl
  | complete buf acts =>
    simp only [step] at h
    split at h
    · split at h
      · exact (onSyncData_micro (s := s.stopFetcher) hs h).mono
          (rules_le (fun _ _ _ h => h) (fun _ h => h) (fun _ _ h => h) (fun _ h => ⟨buf, acts, rfl, h⟩))
      · cases h; exact Micros.refl
    · cases h; exact Micros.refl
  | error t =>
    simp only [step] at h
    split at h
    · split at h
      · cases h; split <;> exact Micros.refl
      · cases h; exact Micros.refl
    · cases h; exact Micros.refl
  | tick t =>
    simp only [step, Res.ok.injEq] at h
    subst h
    split
    · rename_i hc
      simp only [Bool.and_eq_true, decide_eq_true_eq] at hc
      exact Micros.one (.tick t hc.1)
    · exact Micros.refl
  | fireSync =>
    simp only [step] at h
    split at h
    · split at h
      · split at h
        · exact sendSyncInterest_micro (ρ := opRules cfg .fireSync) (s := { s with sched := none }) (fun b n hn => ⟨hn, rfl⟩) h
        · exact sendSyncInterest_micro (ρ := opRules cfg .fireSync) (s := { s with sched := none, waitOut := false }) (fun b n hn => ⟨hn, rfl⟩) h
      · cases h; exact Micros.refl
    · cases h; exact Micros.refl
  | fireDelay =>
    simp only [step] at h
    split at h
    · split at h
      · simp only [Res.bind_eq_ok, Res.ok.injEq] at h
        obtain ⟨s1, h1, rfl⟩ := h
        rw [scheduleProcess_view]
        exact (processWaiting_micro (s := { s with delayTimer := none }) hs h1).mono (live_le _)
      · cases h; exact Micros.refl
    · cases h; exact Micros.refl
  | expire n =>
    simp only [step] at h
    split at h
    · cases h; split <;> exact Micros.refl
    · cases h; exact Micros.refl
  | fireStore =>
    simp only [step, Res.ok.injEq] at h
    subst h
    exact Micros.one (.fire s.now rfl)

theorem Call.PublishesAs.publishes {p : Name} {q : Nat} {c : Call} (h : c.PublishesAs p q) : c.Publishes p := by
  cases c with
  | publishName p' seq => exact h.1
  | _ => exact h

theorem Op.PublishesAs.publishes {p : Name} {q : Nat} {op : Op} (h : op.PublishesAs p q) : op.Publishes p := by
  cases op with
  | call c => exact Call.PublishesAs.publishes h
  | complete buf acts => obtain ⟨c, hc, h⟩ := h; exact ⟨c, hc, h.publishes⟩
  | _ => exact h

/-- What a sequence of events of a FullProducer may do. -/
def runRules (cfg : Cfg) (ops : List Op) : Rules :=
  rules cfg knownP (fun p => ∃ op ∈ ops, op.Removes p) (fun p _ => ∃ op ∈ ops, op.Publishes p) (fun _ => True)

theorem run_micro {cfg : Cfg} {s s' : Full} (hs : s.base.Inv) {ops : List Op} (h : run cfg s ops = .ok s') :
    Micros (runRules cfg ops) s.view s'.view := by
  have := foldRes_rel (Q := fun a b : Full => a.base.Inv → b.base.Inv ∧ Micros (runRules cfg ops) a.view b.view)
    (fun _ hi => ⟨hi, Micros.refl⟩)
    (fun _ _ _ h1 h2 hi => ⟨(h2 (h1 hi).1).1, (h1 hi).2.trans (h2 (h1 hi).1).2⟩) ops
    (fun a o b ho hx hi => ⟨(step_steps hx).inv hi, (step_micro hi hx).mono
      (rules_le (fun _ _ _ h => h) (fun _ h => ⟨o, ho, h⟩) (fun _ _ h => ⟨o, ho, Op.PublishesAs.publishes h⟩) (fun _ _ => trivial))⟩) h
  exact (this hs).2

theorem init_micro {cfg : Cfg} {s : Full} (h : init cfg = .ok s) (ops : List Op) :
    Micros (runRules cfg ops) ⟨Base.new cfg, SegPub.empty, [], [], [], 0⟩ s.view := by
  have := sendSyncInterest_micro (ρ := runRules cfg ops) (fun b n hn => ⟨hn, rfl⟩) h
  exact this

end Full
end PSync
