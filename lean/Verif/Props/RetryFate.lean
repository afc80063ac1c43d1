import Verif.Spec.RetryFate
import Verif.Props.Arrival
import Verif.Proofs.PacketSize
import Verif.Proofs.Retry
import Verif.Props.FullPending
/-!
C93: what becomes of a delayed full-sync Interest.
-/
namespace PSync
open Spec

namespace Full

/-- The end of the loop body, PSync/full-producer.cpp:196-202. -/
theorem retry_end {s2 s' : Full} {n : Name} (h : (match s2.waiting.find n with
      | none => (.ok s2 : Res Full)
      | some w => if w.numTries = MAX_TRIES then .ok { s2 with waiting := s2.waiting.erase n } else .ok s2) = .ok s') :
    s' = { s2 with waiting := s'.waiting } ∧
    ∀ w, s2.waiting.find n = some w → s'.waiting.find n = if w.numTries = 65535 then none else some w := by
  split at h
  · rename_i hn
    cases h
    exact ⟨rfl, fun w hw => by rw [hn] at hw; cases hw⟩
  · rename_i w hw
    split at h
    · rename_i hm
      cases h
      refine ⟨rfl, fun w' hw' => ?_⟩
      rw [hw] at hw'
      cases hw'
      rw [if_pos (show w.numTries = 65535 from hm)]
      exact (NMap.find_erase _ _ _).trans (if_pos rfl)
    · rename_i hm
      cases h
      refine ⟨rfl, fun w' hw' => ?_⟩
      rw [hw] at hw'
      cases hw'
      rw [if_neg (show ¬ w.numTries = 65535 from hm), hw]

theorem waitOrGiveUp_timed {cfg : Cfg} {s : Full} {i : Interest} {w : Waiting} (hw : s.waiting.find i.name = some w) :
    waitOrGiveUp cfg s i true = if w.numTries > 1 then (s.markWaiting i.name, true) else (s, false) := by
  unfold waitOrGiveUp
  simp only [hw, if_true]

theorem markWaiting_here {s : Full} {n : Name} {w : Waiting} (hw : s.waiting.find n = some w) :
    (s.markWaiting n).waiting.find n = some { w with numTries := MAX_TRIES } := by
  rw [markWaiting_find, if_pos rfl, hw]
  rfl

theorem recentlySent_iff {s : Full} : s.recentlySent = true ↔ ∃ t, s.lastSent = some t ∧ s.now - t < 100 := by
  unfold recentlySent
  cases h : s.lastSent with
  | none => simp
  | some t => simp only [decide_eq_true_eq, Option.some.injEq, exists_eq_left']; rfl

theorem sendSyncInterest_anew {cfg : Cfg} {s s' : Full} (h : sendSyncInterest cfg s = .ok s') : AsksAnew cfg s s' := by
  have hc := sendSyncInterest_core h
  refine ⟨hc.base, hc.pending, ?_⟩
  rcases sendSyncInterest_ok h with ⟨h1, rfl⟩ | ⟨h1, name, h2, ⟨h3, h4, rfl⟩ | ⟨h3, rfl⟩⟩
  · exact Or.inl ⟨h1, rfl⟩
  · exact Or.inr ⟨h1, name, h2, Or.inl ⟨recentlySent_iff.mp h3, h4, rfl⟩⟩
  · refine Or.inr ⟨h1, name, h2, Or.inr ⟨?_, rfl⟩⟩
    rintro ⟨h5, h6⟩
    rcases h3 with h3 | h3
    · rw [recentlySent_iff.mpr h5] at h3; cases h3
    · exact h3 h6

/-- One retry. -/
theorem processOne_fate {cfg : Cfg} (hwf : cfg.WF) {s s' : Full} (hinv : s.base.Inv) {n : Name} {w : Waiting}
    (hw : s.waiting.find n = some w) (hle : w.numTries ≤ MAX_TRIES) (h : processOne cfg s n = .ok s') : RetryOf cfg s s' n := by
  have hr := processOne_retried h (fun w' hw' => by rw [hw] at hw'; cases hw'; exact hle)
  refine ⟨w, hw, hr.other, ?_⟩
  unfold processOne at h
  simp only [hw] at h
  split at h
  · rename_i hm
    cases h
    exact Or.inl ⟨hm, rfl, (NMap.find_erase _ _ _).trans (if_pos rfl)⟩
  · rename_i hm
    refine Or.inr ⟨Nat.lt_of_le_of_ne hle hm, ?_⟩
    simp only [Res.bind_eq_ok] at h
    obtain ⟨s2, h1, h2⟩ := h
    obtain ⟨hs', hfin⟩ := retry_end h2
    have hset : (s.waiting.set n { w with numTries := w.numTries + 1 }).find n = some ⟨w.numTries + 1, w.nonce⟩ :=
      (NMap.find_set _ _ _ _).trans (if_pos rfl)
    have hothers : ∀ m, m ≠ n → s'.waiting.find m = s.waiting.find m := hr.other
    generalize hs1 : ({ s with waiting := s.waiting.set n { w with numTries := w.numTries + 1 } } : Full) = s1 at h1
    have hw1 : s1.waiting.find n = some ⟨w.numTries + 1, w.nonce⟩ := by rw [← hs1]; exact hset
    have e1 : s1 = { s with waiting := s1.waiting } := by rw [← hs1]
    have hbase : s1.base = s.base := by rw [e1]
    have hpub : s1.pub = s.pub := by rw [e1]
    have hlog : s1.log = s.log := by rw [e1]
    have hpend : s1.pending = s.pending := by rw [e1]
    have hnow : s1.now = s.now := by rw [e1]
    have hout : s1.outstanding = s.outstanding := by rw [e1]
    have hinv1 : s1.base.Inv := by rw [hbase]; exact hinv
    clear hs1
    -- the two ends
    have kept : s2.waiting.find n = some ⟨w.numTries + 1, w.nonce⟩ → StaysOn s' n w := fun hk => hfin _ hk
    have gone : ∀ w', s2.waiting.find n = some w' → w'.numTries = MAX_TRIES → OffList s' n := by
      intro w' hk hx
      have := hfin _ hk
      rw [if_pos (show w'.numTries = 65535 from hx)] at this
      exact this
    have only : s2 = { s1 with waiting := s2.waiting } → OnlyList s s' := by
      intro hk
      unfold OnlyList
      rw [hs', hk, e1]
    have hlog' : s'.log = s2.log := by rw [hs']
    have hbase' : s'.base = s2.base := by rw [hs']
    have hpend' : s'.pending = s2.pending := by rw [hs']
    have replied : ∀ content fr, RepliedAs cfg s1 s2 ⟨n, 4000, w.nonce⟩ content fr → (∃ w', s2.waiting.find n = some w') →
        RepliedAs cfg s s' ⟨n, 4000, w.nonce⟩ content fr ∧ OffList s' n := by
      rintro content fr ⟨v, buf, segs, d, is, g1, g2, g3, g4, g5, g6, g7, g8⟩ ⟨w', hw'⟩
      have hoff := gone w' hw' (g7 w' hw')
      refine ⟨⟨v, buf, segs, d, is, g1, g2, g3, ?_, ?_, ?_, ?_, ?_⟩, hoff⟩
      · rw [hlog', g4, hlog]
      · rw [← hout, ← hbase]; exact g5
      · rw [hbase', g6, hbase]
      · intro w'' hw''
        have : s'.waiting.find n = none := hoff
        rw [this] at hw''; cases hw''
      · intro m hm
        refine ⟨hothers m hm, ?_⟩
        rw [hpend', ← hpend]
        exact (g8 m hm).2
    unfold onSyncInterest at h1
    cases hst : s1.pub.replyFromStore n with
    | some d =>
      left
      simp only [hst, Res.ok.injEq] at h1
      subst h1
      refine ⟨d, hpub ▸ hst, ?_, kept hw1⟩
      rw [hs', e1]
      rfl
    | none =>
      right
      refine ⟨hpub ▸ hst, ?_⟩
      rintro t num ⟨c, d, hn, ht, hnum, hty⟩
      have hn' : n = (cfg.syncPrefix ++ [c]) ++ [d] := by rw [hn]; simp
      have e0 : n.drop cfg.syncPrefix.length = [c, d] := by rw [hn, List.drop_left]
      have e2 : n.getFromEnd 2 = .ok c := by rw [hn, getFromEnd_two]
      have e3 : n.getFromEnd 1 = .ok d := by rw [hn, getFromEnd_last]
      simp only [hst, e0, List.length_cons, List.length_nil, Nat.reduceAdd, Nat.reduceEqDiff, if_false, ne_eq, not_true_eq_false, e2, e3,
        Res.ok_bind, Component.toNumber, hnum, Res.ofOption, ht, Res.bind_eq_ok] at h1
      obtain ⟨diff, hd, h1⟩ := h1
      rw [hbase] at hd
      refine ⟨diff, hd, ?_⟩
      cases hc : diff.canDecode with
      | true =>
        left
        refine ⟨hc, ?_⟩
        simp only [hc, Bool.not_true, Bool.false_eq_true, if_false] at h1
        unfold onDecoded at h1
        by_cases hp : diff.positive = []
        · by_cases hg : diff.negative = []
          · left
            simp only [hp, hg, List.isEmpty_nil, Bool.and_self, if_true, Res.ok.injEq] at h1
            generalize hx : ({ ((s1.pending.find n).getD ⟨t, 0⟩) with deadline := s1.now + defaultLifetime } : FPending) = x at h1
            have hmk := markWaiting_eq { s1 with pending := s1.pending.set n x } n
            rw [h1] at hmk
            have hp2 : s2.pending = s1.pending.set n x := by rw [hmk]
            refine ⟨hp, hg, ?_, ?_, ⟨x, ?_, ?_, fun e he => ?_, fun he => ?_⟩, fun m hm => ?_⟩
            · refine gone ⟨MAX_TRIES, w.nonce⟩ ?_ rfl
              rw [← h1]
              exact markWaiting_here (w := ⟨w.numTries + 1, w.nonce⟩) hw1
            · rw [hs', hmk, e1]
            · rw [hpend', hp2]
              exact (NMap.find_set _ _ _ _).trans (if_pos rfl)
            · rw [← hx, hnow]; rfl
            · rw [← hx, hpend, he]; rfl
            · rw [← hx, hpend, he]; rfl
            · rw [hpend', hp2, hpend]
              exact (NMap.find_set _ _ _ _).trans (if_neg (Ne.symm hm))
          · right; left
            have hg' : diff.negative.isEmpty = false := by simpa using hg
            simp only [hp, hg', List.isEmpty_nil, Bool.and_false, Bool.false_eq_true, if_false, if_true, Res.ok.injEq] at h1
            rw [waitOrGiveUp_timed (i := ⟨n, defaultLifetime, w.nonce⟩) hw1] at h1
            refine ⟨hp, hg, ?_⟩
            by_cases hz : 1 ≤ w.numTries
            · rw [if_pos (by simp only; omega)] at h1
              subst h1
              exact ⟨only (markWaiting_eq _ _), Or.inr ⟨hz, gone _ (markWaiting_here hw1) rfl⟩⟩
            · rw [if_neg (by simp only; omega)] at h1
              subst h1
              exact ⟨only rfl, Or.inl ⟨by omega, kept hw1⟩⟩
        · right; right
          have hp' : diff.positive.isEmpty = false := by simpa using hp
          obtain ⟨l, hl1, hl2⟩ := collect_eq hinv1 diff.negative diff.positive []
          simp only [hp', Bool.false_and, Bool.false_eq_true, if_false, hl1, List.nil_append] at h1
          rw [hbase] at hl2
          refine ⟨hp, l, fun m => ?_, ?_⟩
          · rw [hl2]
            constructor
            · rintro ⟨k, hk, p, x, h1, h2, h3, h4, h5⟩
              exact ⟨p, x, h2, h3, h4, ⟨k, hk, h1⟩, h5⟩
            · rintro ⟨p, x, h2, h3, h4, ⟨k, hk, h1⟩, h5⟩
              exact ⟨k, hk, p, x, h1, h2, h3, h4, h5⟩
          · by_cases hle : l = []
            · left
              simp only [hle, List.isEmpty_nil, if_true, Res.ok.injEq] at h1
              subst h1
              exact ⟨hle, only rfl, kept hw1⟩
            · right
              have hle' : l.isEmpty = false := by simpa using hle
              simp only [hle', Bool.false_eq_true, if_false, Res.bind_eq_ok, Res.ok.injEq] at h1
              obtain ⟨s3, h3, rfl⟩ := h1
              have hcore := sendSyncData_core h3
              have e := markWaiting_eq s3 n
              have hw3 : s3.waiting.find n = some ⟨w.numTries + 1, w.nonce⟩ := by rw [hcore.waiting]; exact hw1
              obtain ⟨r1, r2⟩ := replied l cfg.freshness (sendSyncData_replies_as (i := ⟨n, 4000, w.nonce⟩) hwf.content_lossless hn' hty
                h3 (by rw [e]) (by rw [e]) rfl (fun m hm => by rw [e])) ⟨_, markWaiting_here hw3⟩
              refine ⟨hle, r1, ?_, r2⟩
              rw [hpend', e, ← hpend]
              exact hcore.pending
      | false => 
        right
        refine ⟨hc, ?_⟩
        simp only [hc, Bool.not_false, if_true] at h1
        unfold onUndecodable at h1
        rw [hbase] at h1
        by_cases hlt : s.base.numOwn < num
        · left
          rw [if_pos hlt, waitOrGiveUp_timed (i := ⟨n, defaultLifetime, w.nonce⟩) hw1] at h1
          refine ⟨hlt, ?_⟩
          by_cases hz : 1 ≤ w.numTries
          · right
            rw [if_pos (by simp only; omega)] at h1
            simp only at h1
            have hcore := sendSyncInterest_core h1
            have e := markWaiting_eq s1 n
            refine ⟨hz, gone ⟨MAX_TRIES, w.nonce⟩ ?_ rfl, ?_⟩
            · rw [hcore.waiting]
              exact markWaiting_here (w := ⟨w.numTries + 1, w.nonce⟩) hw1
            · have := sendSyncInterest_anew h1
              rw [e, e1] at this
              obtain ⟨a1, a2, a3⟩ := this
              refine ⟨hbase'.trans a1, hpend'.trans a2, ?_⟩
              rw [hlog']
              exact a3
          · left
            rw [if_neg (by simp only; omega)] at h1
            simp only [Res.ok.injEq] at h1
            subst h1
            exact ⟨by omega, only rfl, kept hw1⟩
        · right
          rw [if_neg hlt] at h1
          have hiff : (s.base.numOwn = num ∧ diff.positive.length = 0 ∧ diff.negative.length > 0) ↔
              (num = s.base.numOwn ∧ diff.positive = [] ∧ diff.negative ≠ []) := by
            rw [List.length_eq_zero_iff, gt_iff_lt, List.length_pos_iff]
            constructor
            · rintro ⟨a, b⟩; exact ⟨a.symm, b⟩
            · rintro ⟨a, b⟩; exact ⟨a.symm, b⟩
          by_cases hq : num = s.base.numOwn ∧ diff.positive = [] ∧ diff.negative ≠ []
          · left
            rw [if_pos (hiff.mpr hq)] at h1
            simp only [Res.ok.injEq] at h1
            subst h1
            exact ⟨hq.1, hq.2.1, hq.2.2, only rfl, kept hw1⟩
          · right
            rw [if_neg (fun a => hq (hiff.mp a))] at h1
            refine ⟨Nat.le_of_not_lt hlt, hq, allContent s.base, fun m => allContent_live hinv, ?_⟩
            simp only at h1
            by_cases hle : allContent s.base = []
            · left
              simp only [hle, List.isEmpty_nil, if_true, Res.ok.injEq] at h1
              subst h1
              exact ⟨hle, only (markWaiting_eq _ _), gone _ (markWaiting_here hw1) rfl⟩
            · right
              have hle' : (allContent s.base).isEmpty = false := by simpa using hle
              simp only [hle', Bool.false_eq_true, if_false, Res.bind_eq_ok, Res.ok.injEq] at h1
              obtain ⟨s3, h3, rfl⟩ := h1
              have hcore := sendSyncData_core h3
              have e := markWaiting_eq (s3.deletePending n) n
              have hw3 : (s3.deletePending n).waiting.find n = some ⟨w.numTries + 1, w.nonce⟩ := by
                have : s3.waiting.find n = some ⟨w.numTries + 1, w.nonce⟩ := by rw [hcore.waiting]; exact hw1
                exact this
              obtain ⟨r1, r2⟩ := replied (allContent s.base) 10 (sendSyncData_replies_as (i := ⟨n, 4000, w.nonce⟩) hwf.content_lossless hn'
                hty h3 (by rw [e]; rfl) (by rw [e]; rfl) (by unfold markWaiting deletePending; simp only; split <;> rfl)
                (fun m hm => by rw [e]; exact (NMap.find_erase _ _ _).trans (if_neg (Ne.symm hm)))) ⟨_, markWaiting_here hw3⟩
              refine ⟨hle, r1, ?_, r2⟩
              rw [hpend', e]
              exact (NMap.find_erase _ _ _).trans (if_pos rfl)

/-- The retries of a list, one after the other. -/
theorem retries_inTurn {cfg : Cfg} (hwf : cfg.WF) (ks : List Name) : ∀ {s s' : Full}, s.base.Inv → ks.Nodup →
    (∀ n ∈ ks, ∃ w, s.waiting.find n = some w ∧ w.numTries ≤ MAX_TRIES) → foldRes (processOne cfg) s ks = .ok s' →
    InTurn (RetryOf cfg) s ks s' := by
  induction ks with
  | nil =>
    intro s s' _ _ _ h
    simp only [foldRes, Res.ok.injEq] at h
    exact h.symm
  | cons n ks ih =>
    intro s s' hi hnd hk h
    rw [List.nodup_cons] at hnd
    simp only [foldRes, Res.bind_eq_ok] at h
    obtain ⟨s1, h1, h2⟩ := h
    obtain ⟨w, hw, hle⟩ := hk n List.mem_cons_self
    have hr := processOne_fate hwf hi hw hle h1
    refine ⟨s1, hr, ih ?_ hnd.2 ?_ h2⟩
    · rw [processOne_base hi h1]; exact hi
    · intro m hm
      obtain ⟨w', hw', hle'⟩ := hk m (List.mem_cons_of_mem _ hm)
      obtain ⟨_, _, ho, _⟩ := hr
      refine ⟨w', ?_, hle'⟩
      rw [ho m (fun e => hnd.1 (e ▸ hm))]
      exact hw'

theorem processWaiting_inTurn {cfg : Cfg} (hwf : cfg.WF) {s s' : Full} (hi : s.base.Inv) (hl : Lists cfg s)
    (h : processWaiting cfg s = .ok s') : InTurn (RetryOf cfg) s s.waiting.keys s' := by
  refine retries_inTurn hwf _ hi (NMap.keys_nodup hl.sorted) (fun n hn => ?_) h
  rw [NMap.mem_keys, Option.isSome_iff_exists] at hn
  obtain ⟨w, hw⟩ := hn
  exact ⟨w, hw, hl.tries n w hw⟩

end Full

/-- **C93**: when the timer for the delayed Interests runs, every delayed Interest is looked at once, one after the other in the order of
their names, with the results that `RetryOf` says; and if there are any left, the timer is set again, for 100 to 500 ms. -/
theorem c93_timer (cfg : Cfg) (hwf : cfg.WF) (s s' : Full) (hs : Full.Reach cfg s) (d : Nat) (hd : s.delayTimer = some d) (hdue : d ≤ s.now)
    (h : Full.step cfg s .fireDelay = .ok s') :
    ∃ s1, InTurn (RetryOf cfg) { s with delayTimer := none } s.waiting.keys s1 ∧
      ((s1.waiting = [] ∧ s' = s1) ∨
       (s1.waiting ≠ [] ∧ ∃ j, 100 ≤ j ∧ j ≤ 500 ∧ s' = { s1 with delayTimer := some (s1.now + j), draws := s1.draws + 1 })) := by
  simp only [Full.step, hd, hdue, if_true, Res.bind_eq_ok, Res.ok.injEq] at h
  obtain ⟨s1, h1, rfl⟩ := h
  have hl := Full.reach_lists hs
  have hi : s.base.Inv := Full.reach_inv hs
  have hl0 : Full.Lists cfg { s with delayTimer := none } := ⟨hl.psorted, hl.sorted, hl.tries, hl.len, hl.plen⟩
  refine ⟨s1, Full.processWaiting_inTurn (s := { s with delayTimer := none }) hwf hi hl0 h1, ?_⟩
  have hnone : s1.delayTimer = none := by
    rcases (Full.processWaiting_armed hwf h1).2 with ⟨h2, _⟩ | ⟨h2, _⟩
    · exact h2
    · cases h2
  unfold Full.scheduleProcess
  cases hw : s1.waiting with
  | nil => exact Or.inl ⟨rfl, rfl⟩
  | cons a l =>
    right
    simp only [List.isEmpty_cons, Bool.false_eq_true, if_false, hnone]
    exact ⟨by simp, _, hwf.jitter_lo _, hwf.jitter_hi _, rfl⟩

/-- **C93**: the same happens when a sync reply brings news, after the numbers were updated, the application was notified and has made its
calls. -/
theorem c93_news (cfg : Cfg) (hwf : cfg.WF) (s s' : Full) (hs : Full.Reach cfg s) (buf : Bytes) (acts : List Full.Call)
    (h : Full.step cfg s (.complete buf acts) = .ok s') (us : List MissingDataInfo) (hu : Out.update us ∈ s'.log.drop s.log.length) :
    ∃ s1, s1.waiting = s.waiting ∧ s1.base = s'.base ∧ InTurn (RetryOf cfg) s1 s.waiting.keys s' := by
  have hi := Full.reach_inv hs
  have hl := Full.reach_lists hs
  simp only [Full.step] at h
  have hno : s'.log = s.log → False := by
    intro e
    rw [e, List.drop_length] at hu
    cases hu
  split at h
  · split at h
    · unfold Full.onSyncData at h
      simp only at h
      split at h
      · cases h; exact (hno rfl).elim
      · simp only [Res.bind_eq_ok] at h
        obtain ⟨r, h1, h2⟩ := h
        split at h2
        · cases h2; exact (hno rfl).elim
        · simp only [Res.bind_eq_ok] at h2
          obtain ⟨s1, h3, h4⟩ := h2
          have h5 := Full.calls_shrunk h3
          have h6 : Full.Shrunk s s1 := by
            refine Full.Shrunk.trans ?_ h5
            exact (Full.Shrunk.delete ((Full.Shrunk.refl s).congr rfl rfl rfl : Full.Shrunk s s.stopFetcher) _).congr rfl rfl rfl
          have hm : Base.Steps (fun _ => True) s.base r.2 := Full.merge_steps _ h1
          have hi2 : s1.base.Inv := (Full.calls_steps h3).inv (hm.inv hi)
          have hw : s1.waiting = s.waiting := h6.waiting
          have hl1 := (h6.congr (s2 := { s1 with sched := some (s1.now + cfg.jitter s1.draws, .renew), draws := s1.draws + 1, waitOut := false })
            rfl rfl rfl).lists hl
          refine ⟨{ s1 with sched := some (s1.now + cfg.jitter s1.draws, .renew), draws := s1.draws + 1, waitOut := false }, hw,
            (Full.processWaiting_base ?_ h4).symm, ?_⟩
          · exact hi2
          · have := Full.processWaiting_inTurn hwf (by exact hi2) hl1 h4
            rw [← hw]
            exact this
    · cases h; exact (hno rfl).elim
  · cases h; exact (hno rfl).elim

/-- **C93**: every delayed Interest has a name made of the sync prefix, an IBF and a number. -/
theorem c93_listed (cfg : Cfg) (s : Full) (hs : Full.Reach cfg s) (n : Name) (w : Waiting) (hw : s.waiting.find n = some w) :
    ∃ c d t num, n = cfg.syncPrefix ++ [c, d] ∧ Table.initialize cfg.ibltCodec cfg.expected c = .ok t ∧ readNni d.value = some num := by
  obtain ⟨s0, ops, h0, h⟩ := hs
  have hL : Full.Laws cfg (fun n => cfg.syncPrefix.isPrefixOf n = true ∧ Full.Parses cfg n) (fun _ => True) (fun _ _ => True) :=
    ⟨fun _ _ _ _ _ _ _ => trivial, fun _ _ _ _ => trivial, fun _ _ _ _ => trivial⟩
  have h1 : Full.Put cfg (fun n => cfg.syncPrefix.isPrefixOf n = true ∧ Full.Parses cfg n) (fun _ => True) (fun _ _ => True) s0 := by
    have hc := Full.sendSyncInterest_core h0
    refine ⟨fun _ _ => trivial, fun _ _ => trivial, fun _ _ _ => trivial, fun n e he => ?_, fun n w hw => ?_, ?_⟩
    · rw [hc.pending] at he; cases he
    · rw [hc.waiting] at hw; cases hw
    · rw [hc.base]; exact Relation.ReflTransGen.refl
  have hp := Full.run_put hL ops (Full.init_lists h0).1 h1 (fun i _ h2 h3 => ⟨h2, h3⟩) h
  obtain ⟨hpre, c2, c1, num, t, g1, g2, g3, g4, g5⟩ := hp.wait n w hw
  obtain ⟨r, hr⟩ := List.isPrefixOf_iff_prefix.mp hpre
  rw [← hr, List.drop_left] at g1
  match r, g1 with
  | [a, b], _ =>
    have e2 : n.getFromEnd 2 = .ok a := by rw [← hr, getFromEnd_two]
    have e1 : n.getFromEnd 1 = .ok b := by rw [← hr, getFromEnd_last]
    rw [e2, Res.ok.injEq] at g2
    rw [e1, Res.ok.injEq] at g3
    subst g2 g3
    refine ⟨a, b, t, num, hr.symm, g5, ?_⟩
    unfold Component.toNumber at g4
    cases hn : readNni b.value with
    | none => rw [hn] at g4; cases g4
    | some x => rw [hn] at g4; cases g4; rfl

/-- The delayed Interests and their numbers of retries, and what was sent since the log had length `k`: `true` for Interests. -/
def delayedNow (k : Nat) (s : Full) : List Nat × List Bool :=
  (s.waiting.map (fun e => e.2.numTries), (s.log.drop k).map fun o => match o with
    | .interest _ _ => true
    | _ => false)

/-- Wait for the timer, and let it run. -/
def timerRuns (t : Nat) : List Full.Op := [.tick t, .fireDelay]

set_option synthInstance.maxSize 1024 in
set_option synthInstance.maxHeartbeats 100000 in
/-- Non-vacuity for C93: a new node gets the Interest of one with /a/1, and one that cannot be decoded and reports 9 publications.  After one
retry both are still delayed; the second retry drops both, and sends a sync Interest for the one that could not be decoded. -/
example : ((Full.init sampleCfg).get?.bind fun r =>
    (Full.run sampleCfg r [.call (.addUserNode pA), .call (.publishName pA none)]).get?.bind fun s : Full =>
    (Full.syncName sampleCfg s.base).get?.bind fun ns =>
    (Full.run sampleCfg r [.tick 200, .recvInterest ⟨ns, 1000, 1⟩, .recvInterest (oddInterest 9)]).get?.bind fun r1 : Full =>
    (Full.run sampleCfg r1 (timerRuns 301)).get?.bind fun r2 : Full =>
    (Full.run sampleCfg r2 (timerRuns 401)).get?.map fun r3 : Full =>
      [delayedNow r.log.length r1, delayedNow r.log.length r2, delayedNow r.log.length r3])
    = some [([0, 0], []), ([1, 1], []), ([], [true])] := by decide +kernel

set_option synthInstance.maxSize 1024 in
set_option synthInstance.maxHeartbeats 100000 in
/-- And if the node gets the missing publication from elsewhere before the first retry, the Interest is parked. -/
example : ((Full.init sampleCfg).get?.bind fun r =>
    (Full.run sampleCfg r [.call (.addUserNode pA), .call (.publishName pA none)]).get?.bind fun s : Full =>
    (Full.syncName sampleCfg s.base).get?.bind fun ns =>
    (Full.run sampleCfg r [.tick 200, .recvInterest ⟨ns, 1000, 1⟩, .call (.addUserNode pA), .call (.publishName pA none)]).get?.bind fun r1 : Full =>
    (Full.run sampleCfg r1 (timerRuns 301)).get?.map fun r2 : Full =>
      (delayedNow r.log.length r1, delayedNow r.log.length r2, r2.pending.map (fun e => e.2.deadline)))
    = some (([0], []), ([], []), [4301]) := by decide +kernel

end PSync
