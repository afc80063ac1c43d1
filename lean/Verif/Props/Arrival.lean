import Verif.Proofs.Pending
import Verif.Proofs.Waiting
import Verif.Spec.Arrival
import Verif.Props.FullMerge
/-!
C78: what becomes of a full-sync Interest.
-/
namespace PSync
open Spec

namespace Full

theorem sendSyncData_replies_as {cfg : Cfg} (hl : cfg.contentCodec.Lossless) {s s' s'' : Full} {i : Interest}
    {n : Name} {c : Component} (hn : i.name = n ++ [c]) (hc : c.type ≠ 50) {content : List Name} {fr : Nat}
    (h : sendSyncData cfg s i.name (encodeNames content) fr = .ok s') (h1 : s''.log = s'.log) (h2 : s''.base = s'.base)
    (h3 : s''.waiting = (s'.markWaiting i.name).waiting)
    (h4 : ∀ m, m ≠ i.name → s''.pending.find m = s'.pending.find m) : RepliedAs cfg s s'' i content fr := by
  have hcore := sendSyncData_core h
  obtain ⟨buf, r, is, g1, g2, g3, g4, g5, _⟩ := sendSyncData_replied h
  have g2' := g2
  rw [hn] at g2'
  obtain ⟨d, hd0, hd⟩ := publish_first hc g2'
  rw [← hn] at hd0
  refine ⟨_, buf, _, d, is, segmentData_spec _ _ _, by rw [List.head?_eq_getElem?]; exact hd0, ?_, ?_, ?_,
    h2.trans hcore.base, ?_, fun m hm => ⟨?_, (h4 m hm).trans (by rw [hcore.pending])⟩⟩
  · obtain ⟨y, e1, e2⟩ := hl (encodeNames content)
    rw [g1, Option.some.injEq] at e1
    rw [e1]; exact e2
  · rw [h1, g4, hd]; rfl
  · by_cases ho : s.outstanding = i.name
    · exact g5.imp id fun g5 => ⟨ho, g5⟩
    · left
      unfold sendSyncData at h
      simp only [Res.bind_eq_ok] at h
      obtain ⟨buf', hb', s1, k1, k2⟩ := h
      rw [decide_eq_false ho] at k1 k2
      simp only [Bool.false_and, Bool.false_eq_true, if_false, Res.ok.injEq] at k1 k2
      subst k2
      obtain ⟨r', k3, k4⟩ := publish_ok k1
      have hbb : buf' = buf := by
        rw [g1] at hb'; simp only [Res.ofOption, Res.ok.injEq] at hb'; exact hb'.symm
      subst hbb
      rw [g2, Res.ok.injEq] at k3
      subst k3
      rw [k4] at g4
      have := congrArg List.length g4
      simp only [List.length_append] at this
      exact List.length_eq_zero_iff.mp (by omega)
  · intro w hw
    rw [h3, markWaiting_find, if_pos rfl, Option.map_eq_some_iff] at hw
    obtain ⟨w0, _, rfl⟩ := hw
    rfl
  · rw [h3, markWaiting_find, if_neg (Ne.symm hm), hcore.waiting]

theorem waitOrGiveUp_delayed (cfg : Cfg) (s : Full) (i : Interest) :
    DelayedAs s (waitOrGiveUp cfg s i false).1 i ∧ (waitOrGiveUp cfg s i false).2 = false := by
  unfold waitOrGiveUp
  cases hw : s.waiting.find i.name with
  | some w =>
    refine ⟨⟨rfl, Or.inl ⟨w, hw, rfl⟩⟩, rfl⟩
  | none =>
    simp only [Bool.not_false, if_true]
    have hne : (s.waiting.set i.name ⟨0, i.nonce⟩).isEmpty = false := by
      cases hx : s.waiting.set i.name ⟨0, i.nonce⟩ with
      | nil =>
        have := NMap.find_set s.waiting i.name ⟨0, i.nonce⟩ i.name
        rw [hx, if_pos rfl] at this
        simp [NMap.find] at this
      | cons a l => rfl
    have hfind : ∀ m, (s.waiting.set i.name ⟨0, i.nonce⟩).find m
        = if i.name = m then some ⟨0, i.nonce⟩ else s.waiting.find m := NMap.find_set _ _ _
    unfold scheduleProcess
    simp only [hne, Bool.false_eq_true, if_false]
    cases hd : s.delayTimer with
    | none =>
      refine ⟨⟨rfl, Or.inr ⟨hw, ?_, fun m hm => ?_, _, rfl⟩⟩, trivial⟩
      · exact (hfind _).trans (if_pos rfl)
      · exact (hfind _).trans (if_neg (Ne.symm hm))
    | some d =>
      refine ⟨⟨rfl, Or.inr ⟨hw, ?_, fun m hm => ?_, d, rfl⟩⟩, trivial⟩
      · exact (hfind _).trans (if_pos rfl)
      · exact (hfind _).trans (if_neg (Ne.symm hm))

end Full

/-- C78: what becomes of a well-formed sync Interest that a full-sync node receives and does not answer from the
store.

If the difference of the IBFs decodes: it is parked if there is none; it is delayed if only the requester has something
the node lacks; otherwise it is answered at once with the publications the requester lacks, with the freshness of
sync replies (and ignored if there are none to be named).

If it does not decode: it is delayed if it reports more publications than the node has; it is ignored if it reports as
many and what was decoded are only publications the node lacks; otherwise it is answered with everything the node
has, with a freshness of 10 ms (if it has anything). -/
theorem c78_arrival (cfg : Cfg) (hwf : cfg.WF) (s s' : Full) (hs : Full.Reach cfg s) (i : Interest) (t : Table) (num : Nat)
    (hi : AsksWith cfg i.name t num) (hst : s.pub.replyFromStore i.name = none)
    (h : Full.step cfg s (.recvInterest i) = .ok s') :
    ∃ diff, Table.diff cfg.fuel s.base.iblt t = .ok diff ∧
      ((diff.canDecode = true ∧
        ((diff.positive = [] ∧ diff.negative = [] ∧ FullParkedAs s s' i t) ∨
         (diff.positive = [] ∧ diff.negative ≠ [] ∧ DelayedAs s s' i) ∨
         (diff.positive ≠ [] ∧ ∃ content, ReplyNames s.base diff content ∧
          ((content = [] ∧ s' = s) ∨ (content ≠ [] ∧ RepliedAs cfg s s' i content cfg.freshness ∧
            s'.pending = s.pending))))) ∨
       (diff.canDecode = false ∧
        ((s.base.numOwn < num ∧ DelayedAs s s' i) ∨
         (num = s.base.numOwn ∧ diff.positive = [] ∧ diff.negative ≠ [] ∧ s' = s) ∨
         (num ≤ s.base.numOwn ∧ ¬ (num = s.base.numOwn ∧ diff.positive = [] ∧ diff.negative ≠ []) ∧
          ∃ content, (∀ n, n ∈ content ↔ IsLive s.base.getSeqNo n) ∧
          ((content = [] ∧ s'.log = s.log ∧ s'.base = s.base ∧ s'.pending = s.pending) ∨
           (content ≠ [] ∧ RepliedAs cfg s s' i content 10 ∧ s'.pending.find i.name = none)))))) := by
  have hinv := Full.reach_inv hs
  obtain ⟨c, d, hn, ht, hnum, hty⟩ := hi
  have hn' : i.name = (cfg.syncPrefix ++ [c]) ++ [d] := by rw [hn]; simp
  have hpre : cfg.syncPrefix.isPrefixOf i.name = true := by
    rw [hn]; exact List.isPrefixOf_iff_prefix.mpr ⟨[c, d], rfl⟩
  have e0 : i.name.drop cfg.syncPrefix.length = [c, d] := by rw [hn, List.drop_left]
  have e2 : i.name.getFromEnd 2 = .ok c := by rw [hn, getFromEnd_two]
  have e1 : i.name.getFromEnd 1 = .ok d := by rw [hn, getFromEnd_last]
  simp only [Full.step, hpre, if_true, Full.onSyncInterest, hst, e0, List.length_cons, List.length_nil, Nat.reduceAdd,
    Nat.reduceEqDiff, if_false, ne_eq, not_true_eq_false, e2, e1, Res.ok_bind, Component.toNumber, hnum, Res.ofOption,
    ht, Res.bind_eq_ok] at h
  obtain ⟨diff, hd, h⟩ := h
  refine ⟨diff, hd, ?_⟩
  cases hc : diff.canDecode with
  | true =>
    left
    refine ⟨rfl, ?_⟩
    simp only [hc, Bool.not_true, Bool.false_eq_true, if_false] at h
    unfold Full.onDecoded at h
    by_cases hp : diff.positive = []
    · by_cases hg : diff.negative = []
      · left
        simp only [hp, hg, List.isEmpty_nil, Bool.and_self, if_true, Bool.false_eq_true, if_false, Res.ok.injEq] at h
        subst h
        refine ⟨hp, hg, rfl, ⟨_, (NMap.find_set _ _ _ _).trans (if_pos rfl), rfl, fun e0 he0 => ?_, fun h0 => ?_⟩, fun m hm =>
          (NMap.find_set _ _ _ _).trans (if_neg (Ne.symm hm))⟩
        · rw [he0]; rfl
        · rw [h0]; rfl
      · right; left
        have hg' : diff.negative.isEmpty = false := by simpa using hg
        simp only [hp, hg', List.isEmpty_nil, Bool.and_false, Bool.false_eq_true, if_false, if_true, Res.ok.injEq] at h
        subst h
        exact ⟨hp, hg, (Full.waitOrGiveUp_delayed cfg s i).1⟩
    · right; right
      have hp' : diff.positive.isEmpty = false := by simpa using hp
      obtain ⟨l, hl1, hl2⟩ := Full.collect_eq hinv diff.negative diff.positive []
      simp only [hp', Bool.false_and, Bool.false_eq_true, if_false, hl1, List.nil_append] at h
      refine ⟨hp, l, fun n => ?_, ?_⟩
      · rw [hl2]
        constructor
        · rintro ⟨k, hk, p, x, h1, h2, h3, h4, h5⟩
          exact ⟨p, x, h2, h3, h4, ⟨k, hk, h1⟩, h5⟩
        · rintro ⟨p, x, h2, h3, h4, ⟨k, hk, h1⟩, h5⟩
          exact ⟨k, hk, p, x, h1, h2, h3, h4, h5⟩
      · by_cases hle : l = []
        · left
          simp only [hle, List.isEmpty_nil, if_true, Res.ok.injEq] at h
          exact ⟨hle, h.symm⟩
        · right
          have hle' : l.isEmpty = false := by simpa using hle
          simp only [hle', Bool.false_eq_true, if_false, Res.bind_eq_ok, Res.ok.injEq] at h
          obtain ⟨s1, h1, rfl⟩ := h
          have e := Full.markWaiting_eq s1 i.name
          refine ⟨hle, Full.sendSyncData_replies_as hwf.content_lossless hn' hty h1 ?_ ?_ rfl fun m hm => ?_, ?_⟩
          · rw [e]
          · rw [e]
          · rw [e]
          · rw [e]; exact (Full.sendSyncData_core h1).pending
  | false =>
    right
    refine ⟨rfl, ?_⟩
    simp only [hc, Bool.not_false, if_true] at h
    unfold Full.onUndecodable at h
    by_cases hlt : s.base.numOwn < num
    · left
      have hw := Full.waitOrGiveUp_delayed cfg s i
      rw [if_pos hlt] at h
      generalize Full.waitOrGiveUp cfg s i false = x at h hw
      obtain ⟨s1, g⟩ := x
      simp only at hw
      obtain ⟨hw, rfl⟩ := hw
      simp only [Res.ok.injEq] at h
      subst h
      exact ⟨hlt, hw⟩
    · right
      rw [if_neg hlt] at h
      have hiff : (s.base.numOwn = num ∧ diff.positive.length = 0 ∧ diff.negative.length > 0) ↔
          (num = s.base.numOwn ∧ diff.positive = [] ∧ diff.negative ≠ []) := by
        rw [List.length_eq_zero_iff, gt_iff_lt, List.length_pos_iff]
        constructor
        · rintro ⟨a, b⟩; exact ⟨a.symm, b⟩
        · rintro ⟨a, b⟩; exact ⟨a.symm, b⟩
      by_cases hq : num = s.base.numOwn ∧ diff.positive = [] ∧ diff.negative ≠ []
      · left
        rw [if_pos (hiff.mpr hq)] at h
        simp only [Res.ok.injEq] at h
        exact ⟨hq.1, hq.2.1, hq.2.2, h.symm⟩
      · right
        rw [if_neg (fun a => hq (hiff.mp a))] at h
        refine ⟨Nat.le_of_not_lt hlt, hq, Full.allContent s.base, fun n => ?_, ?_⟩
        · exact Full.allContent_live hinv
        · simp only at h
          by_cases hle : Full.allContent s.base = []
          · left
            simp only [hle, List.isEmpty_nil, if_true, Res.ok.injEq] at h
            subst h
            have e := Full.markWaiting_eq s i.name
            refine ⟨hle, ?_, ?_, ?_⟩ <;> rw [e]
          · right
            have hle' : (Full.allContent s.base).isEmpty = false := by simpa using hle
            simp only [hle', Bool.false_eq_true, if_false, Res.bind_eq_ok, Res.ok.injEq] at h
            obtain ⟨s1, h1, rfl⟩ := h
            have e := Full.markWaiting_eq (s1.deletePending i.name) i.name
            have hcore := Full.sendSyncData_core h1
            refine ⟨hle, Full.sendSyncData_replies_as hwf.content_lossless hn' hty h1 ?_ ?_ ?_ (fun m hm => ?_), ?_⟩
            · rw [e]; rfl
            · rw [e]; rfl
            · unfold Full.markWaiting Full.deletePending; simp only; split <;> rfl
            · rw [e]; exact (NMap.find_erase _ _ _).trans (if_neg (Ne.symm hm))
            · rw [e]; exact (NMap.find_erase _ _ _).trans (if_pos rfl)

/-- C78 for the Interest of another node `r` (in the state in which it sent it), without hash collisions, when the
difference decodes: the Interest is parked exactly if both have the same publications; it is delayed exactly if `r` has
all publications of the node and more; otherwise the node answers with exactly its latest publications of the prefixes for
which `r` had neither that number nor the next one, if there are any. -/
theorem c78_honest (cfg cfg' : Cfg) (hsame : SameProtocol cfg cfg') (hwf : cfg.WF) (he : 0 < cfg.expected)
    (s s' r : Full) (hs : Full.Reach cfg s) (hr : Full.Reach cfg' r) (hcs : CollisionFree s.base.hist)
    (hcr : CollisionFree r.base.hist) (hnc : NoCollisions cfg.expected s.base.getSeqNo r.base.getSeqNo)
    (i : Interest) (hi : Full.syncName cfg' r.base = .ok i.name) (hst : s.pub.replyFromStore i.name = none)
    (h : Full.step cfg s (.recvInterest i) = .ok s') :
    ∃ diff, Table.diff cfg.fuel s.base.iblt r.base.iblt = .ok diff ∧ (diff.canDecode = true →
      ((∀ n, IsLive s.base.getSeqNo n ↔ IsLive r.base.getSeqNo n) ∧ FullParkedAs s s' i r.base.iblt) ∨
      ((∀ n, IsLive s.base.getSeqNo n → IsLive r.base.getSeqNo n) ∧
        (∃ n, IsLive r.base.getSeqNo n ∧ ¬ IsLive s.base.getSeqNo n) ∧ DelayedAs s s' i) ∨
      ((∃ n, IsLive s.base.getSeqNo n ∧ ¬ IsLive r.base.getSeqNo n) ∧
        ∃ content, (∀ n, n ∈ content ↔ ∃ p x, s.base.getSeqNo p = some x ∧ x ≠ 0 ∧ n = Name.appendNumber p x ∧
            r.base.getSeqNo p ≠ some x ∧ r.base.getSeqNo p ≠ some (x + 1)) ∧
          ((content = [] ∧ s' = s) ∨ (content ≠ [] ∧ RepliedAs cfg s s' i content cfg.freshness)))) := by
  have hb := Full.reach_steps hr
  rw [baseNew_congr hsame] at hb
  rw [syncName_congr hsame] at hi
  have hsi := Full.reach_inv hs
  have hri := hb.inv (Base.inv_new cfg)
  have hsx := Full.reach_exact hs hcs
  have hrx := hb.exact (Base.inv_new cfg) hcr (Base.exact_new cfg)
  have hrr : r.base.Ranged cfg.expected := hb.ranged he (Base.ranged_new cfg)
  obtain ⟨c, hname, hini, hnum⟩ := honest_name hrr hwf.iblt_lossless hri.ownLt
  rw [hi, Res.ok.injEq] at hname
  obtain ⟨diff, hd, hcase⟩ := c78_arrival cfg hwf s s' hs i r.base.iblt r.base.numOwn
    ⟨c, ⟨8, nniBytes r.base.numOwn⟩, hname, hini, readNni_nniBytes _ hri.ownLt, by simp⟩ hst h
  refine ⟨diff, hd, fun hdec => ?_⟩
  have hA := hsx.isHashList hsi
  have hB := hrx.isHashList hri
  obtain ⟨g1, g2, _, _⟩ := c03_diff_exact_partial cfg.expected he _ _ _ _ cfg.fuel diff hsx.ibf hrx.ibf (hnc.few _ _ hA hB)
    (hnc.checks _ _ hA hB) hd hdec
  -- the two lists in terms of publications
  have pos : ∀ n, IsLive s.base.getSeqNo n → (murmurName 11#32 n ∈ diff.positive ↔ ¬ IsLive r.base.getSeqNo n) := by
    intro n hn
    rw [g1, hA.2, hB.2]
    constructor
    · rintro ⟨_, hx⟩ hl
      exact hx ⟨n, hl, rfl⟩
    · intro hx
      refine ⟨⟨n, hn, rfl⟩, ?_⟩
      rintro ⟨n', hn', e⟩
      exact hx (hnc.names n' n (Or.inr (Or.inl hn')) (Or.inl hn) e ▸ hn')
  have neg : ∀ n, Compared s.base.getSeqNo r.base.getSeqNo n → (murmurName 11#32 n ∈ diff.negative ↔
      IsLive r.base.getSeqNo n ∧ ¬ IsLive s.base.getSeqNo n) := by
    intro n hn
    rw [g2, hA.2, hB.2]
    constructor
    · rintro ⟨⟨n', hn', e⟩, hx⟩
      have := hnc.names n' n (Or.inr (Or.inl hn')) hn e
      subst this
      exact ⟨hn', fun hl => hx ⟨n', hl, rfl⟩⟩
    · rintro ⟨h1, h2⟩
      refine ⟨⟨n, h1, rfl⟩, ?_⟩
      rintro ⟨n', hn', e⟩
      exact h2 (hnc.names n' n (Or.inl hn') hn e ▸ hn')
  have posEmpty : diff.positive = [] ↔ ∀ n, IsLive s.base.getSeqNo n → IsLive r.base.getSeqNo n := by
    constructor
    · intro hp n hn
      by_contra hl
      have := (pos n hn).mpr hl
      rw [hp] at this; cases this
    · intro hall
      refine List.eq_nil_iff_forall_not_mem.mpr fun k hk => ?_
      obtain ⟨ha, hb'⟩ := (g1 k).mp hk
      obtain ⟨n, hn, rfl⟩ := (hA.2 k).mp ha
      exact hb' ((hB.2 _).mpr ⟨n, hall n hn, rfl⟩)
  have negEmpty : diff.negative = [] ↔ ∀ n, IsLive r.base.getSeqNo n → IsLive s.base.getSeqNo n := by
    constructor
    · intro hp n hn
      by_contra hl
      have := (neg n (Or.inr (Or.inl hn))).mpr ⟨hn, hl⟩
      rw [hp] at this; cases this
    · intro hall
      refine List.eq_nil_iff_forall_not_mem.mpr fun k hk => ?_
      obtain ⟨ha, hb'⟩ := (g2 k).mp hk
      obtain ⟨n, hn, rfl⟩ := (hB.2 k).mp ha
      exact hb' ((hA.2 _).mpr ⟨n, hall n hn, rfl⟩)
  have live : ∀ p x, x < U64 → x ≠ 0 → (IsLive r.base.getSeqNo (Name.appendNumber p x) ↔ r.base.getSeqNo p = some x) := by
    intro p x hlt h0
    constructor
    · rintro ⟨p', x', hp', _, e⟩
      obtain ⟨rfl, rfl⟩ := appendNumber_inj' hlt (hri.lt _ _ hp') e
      exact hp'
    · intro hp
      exact ⟨p, x, hp, h0, rfl⟩
  rcases hcase with ⟨_, ⟨hp, hg, hk⟩ | ⟨hp, hg, hk⟩ | ⟨hp, content, hcon, hk⟩⟩ | ⟨hno, _⟩
  · exact Or.inl ⟨fun n => ⟨posEmpty.mp hp n, negEmpty.mp hg n⟩, hk⟩
  · refine Or.inr (Or.inl ⟨posEmpty.mp hp, ?_, hk⟩)
    by_contra hall
    refine hg (negEmpty.mpr fun n hn => ?_)
    by_contra hl
    exact hall ⟨n, hn, hl⟩
  · refine Or.inr (Or.inr ⟨?_, content, fun n => ?_, hk.imp id fun a => ⟨a.1, a.2.1⟩⟩)
    · by_contra hall
      refine hp (posEmpty.mpr fun n hn => ?_)
      by_contra hl
      exact hall ⟨n, hn, hl⟩
    · rw [hcon n]
      refine exists_congr fun p => exists_congr fun x => and_congr_right fun hpx => and_congr_right fun hx0 =>
        and_congr_right fun hn => ?_
      subst hn
      have hxlt := hsi.lt _ _ hpx
      have hlv : IsLive s.base.getSeqNo (Name.appendNumber p x) := ⟨p, x, hpx, hx0, rfl⟩
      have a1 : (∃ k ∈ diff.positive, s.base.biMap.findLeft k = some (Name.appendNumber p x)) ↔
          r.base.getSeqNo p ≠ some x := by
        rw [ne_eq, ← live p x hxlt hx0, ← pos _ hlv]
        constructor
        · rintro ⟨k, hk, hf⟩
          have := (hsi.bm _ _ (BiMap.findLeft_some hf)).1
          rw [this] at hk
          exact hk
        · intro hk
          exact ⟨_, hk, BiMap.findLeft_of_mem hsi.nodupL (hsx.all p x hpx hx0)⟩
      have a2 : murmurName 11#32 (Name.appendNumber p ((x + 1) % 2 ^ 64)) ∉ diff.negative ↔
          r.base.getSeqNo p ≠ some (x + 1) := by
        rw [neg _ (Or.inr (Or.inr ⟨p, x, hpx, hx0, rfl⟩))]
        by_cases hlast : x + 1 < U64
        · have hm : (x + 1) % 2 ^ 64 = x + 1 := Nat.mod_eq_of_lt hlast
          rw [hm, live p (x + 1) hlast (by omega)]
          constructor
          · intro hx hq
            refine hx ⟨hq, ?_⟩
            rintro ⟨p', x', hp', _, e⟩
            obtain ⟨rfl, e'⟩ := appendNumber_inj' hlast (hsi.lt _ _ hp') e
            rw [hpx, Option.some.injEq] at hp'
            omega
          · rintro hx ⟨hq, _⟩
            exact hx hq
        · have hm : (x + 1) % 2 ^ 64 = 0 := by
            have : x + 1 = 2 ^ 64 := by
              have : U64 = 2 ^ 64 := rfl
              omega
            rw [this, Nat.mod_self]
          constructor
          · intro _ hq
            exact hlast (hri.lt _ _ hq)
          · rintro _ ⟨⟨p', x', hp', h0, e⟩, _⟩
            rw [hm] at e
            obtain ⟨_, e'⟩ := appendNumber_inj' (by decide) (hri.lt _ _ hp') e
            exact h0 e'.symm
      rw [a1, a2]
  · rw [hdec] at hno; cases hno

/-- What a node does with a sync Interest: the numbers of parked and delayed Interests, and the names and the freshness of
the packets sent. -/
def outcome (s : Full) (i : Interest) : Option (Nat × Nat × List (List Name × Nat)) :=
  (Full.step sampleCfg s (.recvInterest i)).get?.map fun s' =>
    (s'.pending.length, s'.waiting.length,
      (dataOf (s'.log.drop s.log.length)).map fun d => (namesIn sampleCfg d.content, d.freshness))

/-- An Interest whose IBF does not decode, reporting `n` publications. -/
def oddInterest (n : Nat) : Interest :=
  ⟨nameOf [115] ++ [⟨8, List.replicate 72 1⟩, ⟨8, nniBytes n⟩], 1000, 1⟩

set_option synthInstance.maxSize 1024 in
set_option synthInstance.maxHeartbeats 100000 in
/-- Non-vacuity for C78: a new node `r`, and a node `s` that has published /a/1.  Each is sent the Interest of the other, and
`s` also gets the one of a node with /a/2, one that reports 9 publications and cannot be decoded, and the same reporting
none. -/
example : ((Full.init sampleCfg).get?.bind fun r =>
    (Full.run sampleCfg r [.call (.addUserNode pA), .call (.publishName pA none)]).get?.bind fun s : Full =>
    (Full.run sampleCfg s [.call (.publishName pA none)]).get?.bind fun q : Full =>
    (Full.syncName sampleCfg r.base).get?.bind fun nr =>
    (Full.syncName sampleCfg s.base).get?.bind fun ns =>
    (Full.syncName sampleCfg q.base).get?.map fun nq =>
      [outcome r ⟨nr, 1000, 1⟩, outcome r ⟨ns, 1000, 1⟩, outcome s ⟨nr, 1000, 1⟩, outcome s ⟨nq, 1000, 1⟩, outcome s (oddInterest 9),
        outcome s (oddInterest 0)])
    = some [some (1, 0, []), some (0, 1, []), some (0, 0, [([pA.appendNumber 1], 1000)]), some (0, 0, []), some (0, 1, []),
        some (0, 0, [([pA.appendNumber 1], 10)])] := by decide +kernel

end PSync
