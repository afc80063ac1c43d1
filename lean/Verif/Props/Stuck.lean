import Verif.Props.Retry
import Verif.Proofs.Micro
/-!
Property C114: how long an Interest that gets neither an answer nor a place in the table of parked Interests waits.
-/
namespace PSync
open Spec

/-- A node with a long Interest lifetime and the largest jitter. -/
def patientCfg : Cfg := { sampleCfg with lifetime := 200000000, jitter := fun _ => 500 }

theorem patientCfg_wf : patientCfg.WF :=
  ⟨fun _ => by simp only [patientCfg, MIN_JITTER]; omega, fun _ => by simp only [patientCfg, MAX_JITTER]; omega, none_lossless, none_lossless⟩

/-- The sync Interest name of a node that has published /a/2. -/
def stuckName : Name :=
  ((Res.bind (Full.init patientCfg) fun s => Res.bind (Full.run patientCfg s
    [.call (.addUserNode pA), .call (.publishName pA (some 2))]) fun s => Full.syncName patientCfg s.base).get?).getD []

/-- The application publishes /a/1 while the Interest of the node that has /a/2 waits. -/
def stuckOps : List Full.Op := [.call (.addUserNode pA), .recvInterest ⟨stuckName, 10, 9⟩, .call (.publishName pA (some 1))]

/-- The Interest has been retried `k` times, and all that the node has more than its sender is known to be old. -/
structure StuckAt (k : Nat) (s : Full) : Prop where
  reach : Full.Reach patientCfg s
  store : s.pub.replyFromStore stuckName = none
  timers : s.pub.timers = []
  pending : s.pending = []
  waiting : s.waiting = [(stuckName, ⟨k, 9⟩)]
  delay : s.delayTimer = some (s.now + 500)
  sched : s.sched.all (fun x => decide (100000000 ≤ x.1)) = true
  time : s.now = 500 * k
  diff : ∃ c2 c1 m t d, stuckName.getFromEnd 2 = .ok c2 ∧ stuckName.getFromEnd 1 = .ok c1 ∧ c1.toNumber = .ok m ∧
    Table.initialize patientCfg.ibltCodec patientCfg.expected c2 = .ok t ∧
    Table.diff patientCfg.fuel s.base.iblt t = .ok d ∧ d.canDecode = true ∧ d.positive.isEmpty = false ∧
    (Full.collect d.negative s.base d.positive []).1 = []

set_option synthInstance.maxSize 1024 in
theorem stuck_start : ∃ s, StuckAt 0 s := by
  have key : ∃ s0, Full.init patientCfg = .ok s0 ∧ (Full.run patientCfg s0 stuckOps).get?.map (fun s =>
      ((s.pub.replyFromStore stuckName).isNone && s.pub.timers.isEmpty && s.pending.isEmpty && decide (s.waiting = [(stuckName, ⟨0, 9⟩)]) &&
        decide (s.delayTimer = some 500) && s.sched.all (fun x => decide (100000000 ≤ x.1)) && decide (s.now = 0),
        (Res.bind (stuckName.getFromEnd 2) fun c2 => Res.bind (stuckName.getFromEnd 1) fun c1 => Res.bind c1.toNumber fun _ =>
          Res.bind (Table.initialize patientCfg.ibltCodec patientCfg.expected c2) fun t =>
          Table.diff patientCfg.fuel s.base.iblt t).get?.map fun d =>
            (d.canDecode, d.positive.isEmpty, (Full.collect d.negative s.base d.positive []).1)))
      = some (true, some (true, false, [])) := Res.of_get? (by decide +kernel)
  obtain ⟨s0, h0, h1⟩ := key
  obtain ⟨s, h2, h3⟩ := Res.of_get? h1
  simp only [Prod.mk.injEq, Bool.and_eq_true, decide_eq_true_eq, Option.isNone_iff_eq_none, List.isEmpty_iff] at h3
  obtain ⟨⟨⟨⟨⟨⟨⟨h3, h4⟩, h5⟩, h6⟩, h7⟩, h8⟩, h9⟩, h10⟩ := h3
  obtain ⟨d, h11, h12⟩ := Res.of_get? h10
  simp only [Prod.mk.injEq] at h12
  simp only [Res.bind_eq_ok] at h11
  obtain ⟨c2, g1, c1, g2, m, g3, t, g4, g5⟩ := h11
  exact ⟨s, ⟨s0, _, h0, h2⟩, h3, h4, h5, h6, by rw [h7, h9], h8, by rw [h9],
    c2, c1, m, t, d, g1, g2, g3, g4, g5, h12⟩

theorem stuckName_len : (stuckName.drop patientCfg.syncPrefix.length).length = 2 := by decide +kernel

/-- A retry neither answers nor parks the Interest, nor counts against it more than one. -/
theorem stuck_retry {k : Nat} {s : Full} (h : StuckAt k s) (x : Full) (hb : x.base = s.base) (hp : x.pub = s.pub) (nonce : Nat) :
    Full.onSyncInterest patientCfg x ⟨stuckName, defaultLifetime, nonce⟩ true = .ok x := by
  obtain ⟨c2, c1, m, t, d, g1, g2, g3, g4, g5, g6, g7, g8⟩ := h.diff
  have hi := Full.reach_inv h.reach
  have hc : (Full.collect d.negative x.base d.positive []) = ([], x.base) := by
    rw [hb]
    refine Prod.ext g8 ?_
    obtain ⟨l, hl, _⟩ := Full.collect_eq hi d.negative d.positive []
    rw [hl]
  unfold Full.onSyncInterest
  simp only [hp, h.store, stuckName_len, g1, g2, g3, g4, Res.ok_bind, hb, g5, g6]
  simp only [show ¬ ((2 : Nat) = 4) by omega, if_false, ne_eq, not_true_eq_false, Bool.not_true, Bool.false_eq_true]
  unfold Full.onDecoded
  rw [hc]
  simp only [g7, Bool.false_and, Bool.false_eq_true, if_false, List.isEmpty_nil, if_true]

theorem StuckAt.tick {k : Nat} {s : Full} (h : StuckAt k s) (hk : k < 65535) :
    Full.step patientCfg s (.tick (s.now + 500)) = .ok { s with now := s.now + 500 } := by
  have ht : s.timersAfter patientCfg (s.now + 500) = true := by
    unfold Full.timersAfter
    rw [h.delay, h.pending, h.timers]
    have hs := h.sched
    have := h.time
    cases hx : s.sched with
    | none => simp
    | some x =>
      rw [hx] at hs
      simp only [Option.all_some, decide_eq_true_eq] at hs
      simp
      omega
  simp only [Full.step, ht, Bool.and_true]
  rw [if_pos (by simp)]

theorem stuck_round {k : Nat} {s : Full} (h : StuckAt k s) (hk : k + 1 < 65535) :
    ∃ s', Full.run patientCfg s [.tick (s.now + 500), .fireDelay] = .ok s' ∧ StuckAt (k + 1) s' ∧
      StaysWaiting patientCfg stuckName s [.tick (s.now + 500), .fireDelay] ∧
      countRetries patientCfg s [.tick (s.now + 500), .fireDelay] = 1 := by
  have h1 := h.tick (by omega)
  obtain ⟨x, hx⟩ : ∃ x, x = { s with now := s.now + 500 } := ⟨_, rfl⟩
  rw [← hx] at h1
  obtain ⟨y, hy⟩ : ∃ y, y = { x with delayTimer := none, waiting := [(stuckName, ⟨k + 1, 9⟩)] } := ⟨_, rfl⟩
  have hpw : Full.processWaiting patientCfg { x with delayTimer := none } = .ok y := by
    unfold Full.processWaiting
    have hkeys : NMap.keys ({ x with delayTimer := none } : Full).waiting = [stuckName] := by
      rw [hx]; simp only [h.waiting]; rfl
    rw [hkeys]
    simp only [foldRes]
    have hone : Full.processOne patientCfg { x with delayTimer := none } stuckName = .ok y := by
      unfold Full.processOne
      have hf : ({ x with delayTimer := none } : Full).waiting.find stuckName = some ⟨k, 9⟩ := by
        rw [hx]; simp [h.waiting, NMap.find]
      simp only [hf]
      rw [if_neg (by unfold MAX_TRIES; omega)]
      have hset : x.waiting.set stuckName ⟨k + 1, 9⟩ = [(stuckName, ⟨k + 1, 9⟩)] := by
        rw [hx]; simp [h.waiting, NMap.set]
      rw [hset, ← hy]
      rw [stuck_retry h y (by rw [hy, hx]) (by rw [hy, hx])]
      have hf2 : y.waiting.find stuckName = some ⟨k + 1, 9⟩ := by rw [hy]; simp [NMap.find]
      simp only [Res.ok_bind, hf2]
      rw [if_neg (by unfold MAX_TRIES; omega)]
    rw [hone]
    rfl
  obtain ⟨z, hz⟩ : ∃ z, z = { y with delayTimer := some (y.now + 500), draws := y.draws + 1 } := ⟨_, rfl⟩
  have h2 : Full.step patientCfg x .fireDelay = .ok z := by
    simp only [Full.step]
    have hd : x.delayTimer = some x.now := by rw [hx]; exact h.delay
    simp only [hd, le_refl, if_true, hpw, Res.ok_bind]
    unfold Full.scheduleProcess
    rw [hz, hy]
    rfl
  have hr : Full.Reach patientCfg z := (h.reach.next h1).next h2
  have hzb : z.base = s.base := by rw [hz, hy, hx]
  have hzp : z.pub = s.pub := by rw [hz, hy, hx]
  have hzw : z.waiting = [(stuckName, ⟨k + 1, 9⟩)] := by rw [hz, hy]
  refine ⟨z, by simp only [Full.run, foldRes, h1, h2, Res.ok_bind],
    ⟨hr, by rw [hzp]; exact h.store, by rw [hzp]; exact h.timers, by rw [hz, hy, hx]; exact h.pending, hzw, by rw [hz],
      by rw [hz, hy, hx]; exact h.sched, by rw [hz, hy, hx]; simp only [h.time]; omega, by rw [hzb]; exact h.diff⟩, ?_, ?_⟩
  · simp only [StaysWaiting, h1, h2]
    have hxw : x.waiting = [(stuckName, ⟨k, 9⟩)] := by rw [hx]; exact h.waiting
    rw [h.waiting, hxw, hzw]
    simp [NMap.keys]
  · have hd : x.delayTimer = some x.now := by rw [hx]; exact h.delay
    have hret : isRetry x .fireDelay z = true := by simp [isRetry, hd]
    simp only [countRetries, h1, h2, hret]
    simp [isRetry]

theorem staysWaiting_append {cfg : Cfg} {n : Name} {post : List Full.Op} (ops : List Full.Op) : ∀ {s s1 : Full},
    Full.run cfg s ops = .ok s1 → StaysWaiting cfg n s ops → StaysWaiting cfg n s1 post →
    StaysWaiting cfg n s (ops ++ post) ∧ countRetries cfg s (ops ++ post) = countRetries cfg s ops + countRetries cfg s1 post := by
  induction ops with
  | nil =>
    intro s s1 h _ h2
    simp only [Full.run, foldRes, Res.ok.injEq] at h
    subst h
    exact ⟨h2, by simp [countRetries]⟩
  | cons a ops ih =>
    intro s s1 h hw h2
    simp only [Full.run, foldRes, Res.bind_eq_ok] at h
    obtain ⟨s3, h3, h4⟩ := h
    simp only [StaysWaiting, h3] at hw
    obtain ⟨h5, h6⟩ := ih h4 hw.2 h2
    simp only [List.cons_append, StaysWaiting, countRetries, h3]
    exact ⟨⟨hw.1, h5⟩, by rw [h6]; omega⟩

theorem stuck_all {s0 : Full} (h0 : StuckAt 0 s0) : ∀ k, k < 65535 → ∃ ops s, Full.run patientCfg s0 ops = .ok s ∧ StuckAt k s ∧
    StaysWaiting patientCfg stuckName s0 ops ∧ countRetries patientCfg s0 ops = k
  | 0, _ => ⟨[], s0, rfl, h0, by simp only [StaysWaiting, h0.waiting]; simp [NMap.keys], rfl⟩
  | k + 1, hk => by
    obtain ⟨ops, s, h1, h2, h3, h4⟩ := stuck_all h0 k (by omega)
    obtain ⟨s', h5, h6, h7, h8⟩ := stuck_round h2 hk
    obtain ⟨h9, h10⟩ := staysWaiting_append ops h1 h3 h7
    refine ⟨ops ++ [.tick (s.now + 500), .fireDelay], s', ?_, h6, h9, by rw [h10, h4, h8]⟩
    unfold Full.run at *
    rw [foldRes_append, h1]
    exact h5

/-- C114: the bounds of C31 and C73 are reached: there is a run of a node whose timers are never late in which an Interest of 10 ms
lifetime is retried 65534 times and waits for 500 ms times 65535, more than nine hours. -/
theorem c114_nine_hours : ∃ s s' ops, Full.Reach patientCfg s ∧ Full.run patientCfg s ops = .ok s' ∧
    StaysWaiting patientCfg stuckName s ops ∧ countRetries patientCfg s ops = 65534 ∧ s'.now = s.now + 500 * 65535 ∧
    patientCfg.lag = 0 := by
  obtain ⟨s0, h0⟩ := stuck_start
  obtain ⟨ops, s, h1, h2, h3, h4⟩ := stuck_all h0 65534 (by omega)
  have h5 := h2.tick (by omega)
  have h6 : StaysWaiting patientCfg stuckName s [.tick (s.now + 500)] := by
    simp only [StaysWaiting, h5, h2.waiting]
    simp [NMap.keys]
  obtain ⟨h7, h8⟩ := staysWaiting_append ops h1 h3 h6
  refine ⟨s0, { s with now := s.now + 500 }, ops ++ [.tick (s.now + 500)], h0.reach, ?_, h7, ?_, ?_, rfl⟩
  · unfold Full.run at *
    rw [foldRes_append, h1]
    simp only [foldRes, h5, Res.ok_bind]
  · rw [h8, h4]
    simp [countRetries, h5, isRetry]
  · simp only [h2.time, h0.time]

/-! ### Interests that are dealt with -/

/-- What this node (table `b`, store `pub`) has to say to the Interest named `n` is clear: no packet for it is in the store, and if the
difference does not decode, it is not the case that both have the same number of publications and only something we miss was found; if it
decodes, either we have nothing the sender lacks or among it is a current publication of which the sender does not have the successor. -/
def Spec.Decided (cfg : Cfg) (pub : SegPub) (b : Base) (n : Name) : Prop :=
  pub.replyFromStore n = none ∧ ∃ c2 c1 num iblt diff, (n.drop cfg.syncPrefix.length).length = 2 ∧
    n.getFromEnd 2 = .ok c2 ∧ n.getFromEnd 1 = .ok c1 ∧ c1.toNumber = .ok num ∧
    Table.initialize cfg.ibltCodec cfg.expected c2 = .ok iblt ∧ Table.diff cfg.fuel b.iblt iblt = .ok diff ∧
    ((diff.canDecode = false ∧ ¬ (b.numOwn = num ∧ diff.positive = [] ∧ diff.negative ≠ [])) ∨
     (diff.canDecode = true ∧ (diff.positive = [] ∨ ∃ h ∈ diff.positive, ∃ p q, b.biMap.findLeft h = some (Name.appendNumber p q) ∧
        b.prefixes.find p = some q ∧ q ≠ 0 ∧ nameHash (Name.appendNumber p ((q + 1) % 2 ^ 64)) ∉ diff.negative)))

/-- An Interest that is ahead is decided. -/
theorem AheadOf.decided {cfg : Cfg} {pub : SegPub} {b : Base} {n : Name} (h : AheadOf cfg pub b n) : Decided cfg pub b n := by
  obtain ⟨h0, c2, c1, num, iblt, diff, h1, h2, h3, h4, h5, h6, h7⟩ := h
  refine ⟨h0, c2, c1, num, iblt, diff, h1, h2, h3, h4, h5, h6, ?_⟩
  rcases h7 with ⟨h7, h8⟩ | ⟨h7, h8, _⟩
  · exact .inl ⟨h7, fun h9 => by omega⟩
  · exact .inr ⟨h7, .inl h8⟩

theorem onSyncInterest_decided {cfg : Cfg} {s s' : Full} (hs : s.base.Inv) {i : Interest} {w : Waiting} (ha : Decided cfg s.pub s.base i.name)
    (hw : s.waiting.find i.name = some w) (h2 : 2 ≤ w.numTries) (h : Full.onSyncInterest cfg s i true = .ok s') :
    s'.waiting.find i.name = some { w with numTries := MAX_TRIES } := by
  have hmark : ∀ x : Full, x.waiting = s.waiting → (x.markWaiting i.name).waiting.find i.name = some { w with numTries := MAX_TRIES } := by
    intro x hx
    rw [Full.markWaiting_find, if_pos rfl, hx, hw]
    rfl
  have hgive : Full.waitOrGiveUp cfg s i true = (s.markWaiting i.name, true) := by
    unfold Full.waitOrGiveUp
    simp only [hw, if_true]
    rw [if_pos (by omega)]
  obtain ⟨h0, c2, c1, num, iblt, diff, g1, g2, g3, g4, g5, g6, g7⟩ := ha
  unfold Full.onSyncInterest at h
  simp only [h0, g1, g2, g3, g4, g5, g6, Res.ok_bind] at h
  simp only [show ¬ ((2 : Nat) = 4) by omega, if_false, ne_eq, not_true_eq_false] at h
  rcases g7 with ⟨hc, hn⟩ | ⟨hc, hn⟩
  · simp only [hc, Bool.not_false, if_true] at h
    unfold Full.onUndecodable at h
    split at h
    · rw [hgive] at h
      simp only at h
      rw [(Full.sendSyncInterest_core h).waiting]
      exact hmark s rfl
    · split at h
      · rename_i h3
        exact absurd ⟨h3.1, List.length_eq_zero_iff.mp h3.2.1, fun e => by rw [e] at h3; simp at h3⟩ hn
      · simp only at h
        split at h
        · cases h; exact hmark s rfl
        · simp only [Res.bind_eq_ok, Res.ok.injEq] at h
          obtain ⟨x, h3, rfl⟩ := h
          exact hmark _ (Full.sendSyncData_core h3).waiting
  · simp only [hc, Bool.not_true, Bool.false_eq_true, if_false] at h
    unfold Full.onDecoded at h
    split at h
    · simp only [if_true, Res.ok.injEq] at h
      subst h
      exact hmark _ rfl
    · split at h
      · rw [hgive] at h
        cases h
        exact hmark s rfl
      · rename_i hne
        rcases hn with hn | ⟨x, hx, p, q, e1, e2, e3, e4⟩
        · exact absurd (by rw [hn]; rfl) hne
        · obtain ⟨l, hl, hmem⟩ := Full.collect_eq hs diff.negative diff.positive []
          simp only [hl, List.nil_append] at h
          have hm : Name.appendNumber p q ∈ l := (hmem _).mpr ⟨x, hx, p, q, e1, e2, e3, rfl, e4⟩
          have hnl : l.isEmpty = false := by
            cases l with
            | nil => cases hm
            | cons _ _ => rfl
          simp only [hnl, Bool.false_eq_true, if_false, Res.bind_eq_ok, Res.ok.injEq] at h
          obtain ⟨y, h3, rfl⟩ := h
          exact hmark _ (Full.sendSyncData_core h3).waiting

theorem processOne_decided {cfg : Cfg} {s s' : Full} {n : Name} (hs : s.base.Inv) (ha : Decided cfg s.pub s.base n)
    (hw : ∀ w, s.waiting.find n = some w → 1 ≤ w.numTries) (h : Full.processOne cfg s n = .ok s') :
    s'.waiting.find n = none := by
  unfold Full.processOne at h
  cases hf : s.waiting.find n with
  | none => simp only [hf, Res.ok.injEq] at h; subst h; exact hf
  | some w =>
    have hw1 := hw w hf
    simp only [hf] at h
    split at h
    · cases h
      simp [NMap.find_erase]
    · simp only [Res.bind_eq_ok] at h
      obtain ⟨s1, h1, h2⟩ := h
      have hset : (s.waiting.set n { w with numTries := w.numTries + 1 }).find n =
          some { w with numTries := w.numTries + 1 } := (NMap.find_set _ _ _ _).trans (if_pos rfl)
      have hs1 := onSyncInterest_decided
        (s := { s with waiting := s.waiting.set n { w with numTries := w.numTries + 1 } }) hs ha hset (by simp only; omega) h1
      simp only at hs1
      simp only [hs1, if_true] at h2
      cases h2
      simp [NMap.find_erase]

theorem pass_decided {cfg : Cfg} {n : Name} (ks : List Name) : ∀ {s s' : Full}, ks.Nodup → n ∈ ks → s.base.Inv →
    (∀ k ∈ ks, k.length = n.length) → (∀ k ∈ ks, ∀ w, s.waiting.find k = some w → w.numTries ≤ MAX_TRIES) →
    Decided cfg s.pub s.base n → (∀ w, s.waiting.find n = some w → 1 ≤ w.numTries) →
    foldRes (Full.processOne cfg) s ks = .ok s' → s'.waiting.find n = none := by
  induction ks with
  | nil => intro s s' _ h; cases h
  | cons k ks ih =>
    intro s s' hnd hmem hs hlen hle ha hw h
    rw [List.nodup_cons] at hnd
    simp only [foldRes, Res.bind_eq_ok] at h
    obtain ⟨s1, h1, h2⟩ := h
    have hb := Full.processOne_base hs h1
    have r := Full.processOne_retried h1 (hle k (by simp))
    have hle' : ∀ k' ∈ ks, ∀ w, s1.waiting.find k' = some w → w.numTries ≤ MAX_TRIES := by
      intro k' hk' w hw'
      rw [r.other k' (fun e => hnd.1 (e ▸ hk'))] at hw'
      exact hle k' (List.mem_cons_of_mem _ hk') w hw'
    by_cases hk : k = n
    · subst hk
      have h3 := processOne_decided hs ha hw h1
      rw [(Full.passed_loop ks hnd.2 hle' h2).other k hnd.1]
      exact h3
    · have hmem' : n ∈ ks := by
        rcases List.mem_cons.1 hmem with h | h
        · exact absurd h.symm hk
        · exact h
      refine ih hnd.2 hmem' (hb.symm ▸ hs) (fun k' hk' => hlen k' (List.mem_cons_of_mem _ hk')) hle' ?_ ?_ h2
      · refine ⟨Full.processOne_other hs h1 (hlen k (by simp)) hk ha.1, ?_⟩
        rw [hb]
        exact ha.2
      · intro w hw'
        rw [r.other n (fun e => hk e.symm)] at hw'
        exact hw w hw'

/-- C114, one retry: an Interest that has been retried before is dropped by the next retry if it is decided then (it is not parked and
no packet for it is in memory before the event; the difference is to the state after the event). -/
theorem decided_dropped {cfg : Cfg} {s s1 s2 : Full} (hs : Full.Reach cfg s) {ops : List Full.Op} {op : Full.Op}
    {n : Name} (h : Full.run cfg s ops = .ok s1) (hn : StaysWaiting cfg n s ops)
    (hc : 1 ≤ countRetries cfg s ops) (h2 : Full.step cfg s1 op = .ok s2)
    (hr : isRetry s1 op s2 = true) (hp : n ∉ s1.pending.keys) (ha : Decided cfg s1.pub s2.base n) : n ∉ s2.waiting.keys := by
  have hi := Full.reach_inv hs
  have hl := Full.reach_lists hs
  obtain ⟨w, w', _, hw', hle, _⟩ := staysWaiting_count ops hi hl h hn
  have hi1 := (Full.run_steps h).inv hi
  have hl1 := Full.run_lists hl h
  obtain ⟨s3, s4, g1, g2, g3, g4, g5, g6⟩ := retry_event hi1 hl1 h2 hr
  have hk : n ∈ s3.waiting.keys := by rw [g1.waiting, NMap.mem_keys, hw']; rfl
  have hl3 := g1.lists hl1
  have hlen : ∀ k w, s3.waiting.find k = some w → k.length = cfg.syncPrefix.length + 2 := by
    intro k w hk
    have := hl3.len k w hk
    rw [List.length_drop] at this
    omega
  have hnone := pass_decided (cfg := cfg) (n := n) s3.waiting.keys (NMap.keys_nodup hl3.sorted) hk g2
    (by
      intro k hk'
      obtain ⟨w1, hw1⟩ := keys_some hk'
      obtain ⟨w2, hw2⟩ := keys_some hk
      rw [hlen k w1 hw1, hlen n w2 hw2])
    (fun k _ w hw => hl3.tries k w hw)
    (by rw [← g3]; exact ⟨g6 n ha.2.choose_spec.choose_spec.choose_spec.choose_spec.choose_spec.1 hp ha.1, ha.2⟩)
    (by
      intro w2 hw2
      rw [g1.waiting, hw'] at hw2
      cases hw2
      omega)
    g4
  intro hmem
  obtain ⟨w3, hw3⟩ := keys_some hmem
  rw [g5, hnone] at hw3
  cases hw3

/-- During a run, at every retry, the Interest `n` is not parked and is decided. -/
def Spec.StaysDecided (cfg : Cfg) (n : Name) : Full → List Full.Op → Prop
  | _, [] => True
  | s, op :: ops =>
    match Full.step cfg s op with
    | .ok s' => (isRetry s op s' = true → n ∉ s.pending.keys ∧ Decided cfg s.pub s'.base n) ∧ StaysDecided cfg n s' ops
    | _ => True

theorem staysDecided_snoc {cfg : Cfg} {n : Name} (ops : List Full.Op) (op : Full.Op) : ∀ {s s1 s2 : Full},
    Full.run cfg s ops = .ok s1 → Full.step cfg s1 op = .ok s2 → StaysDecided cfg n s (ops ++ [op]) →
    StaysDecided cfg n s ops ∧ (isRetry s1 op s2 = true → n ∉ s1.pending.keys ∧ Decided cfg s1.pub s2.base n) := by
  induction ops with
  | nil =>
    intro s s1 s2 h h2 hw
    simp only [Full.run, foldRes, Res.ok.injEq] at h
    subst h
    simp only [List.nil_append, StaysDecided, h2] at hw
    exact ⟨trivial, hw.1⟩
  | cons a ops ih =>
    intro s s1 s2 h h2 hw
    simp only [Full.run, foldRes, Res.bind_eq_ok] at h
    obtain ⟨s3, h3, h4⟩ := h
    simp only [List.cons_append, StaysDecided, h3] at hw
    obtain ⟨h5, h6⟩ := ih h4 h2 hw.2
    exact ⟨by simp only [StaysDecided, h3]; exact ⟨hw.1, h5⟩, h6⟩

/-- What C73 assumes is more than what C114 does. -/
theorem staysAhead_decided {cfg : Cfg} {n : Name} (ops : List Full.Op) : ∀ {s : Full}, StaysAhead cfg n s ops → StaysDecided cfg n s ops := by
  induction ops with
  | nil => intro s _; trivial
  | cons op ops ih =>
    intro s h
    cases hs : Full.step cfg s op with
    | ok s' =>
      simp only [StaysAhead, hs] at h
      simp only [StaysDecided, hs]
      exact ⟨fun _ => ⟨h.1, AheadOf.decided h.2.1⟩, ih h.2.2⟩
    | _ => simp only [StaysDecided, hs]

/-- The full claim C114: an Interest waits for at most two retries, that is a second and the time two timers are late. -/
def Spec.WaitsASecond : Prop :=
  ∀ cfg : Cfg, cfg.WF → ∀ (s s' : Full) (ops : List Full.Op) (n : Name), Full.Reach cfg s → Full.run cfg s ops = .ok s' →
    StaysWaiting cfg n s ops → countRetries cfg s ops ≤ 1 ∧ s'.now ≤ s.now + 2 * (500 + cfg.lag)

/-- C114, partial: an Interest that is decided and not parked at every retry waits for at most two retries.  (Missing: retries at which all that
we have more than the sender is old, or only a difference to something we miss is found among equally many publications, or
a packet for the Interest is in memory, `c114_false`.) -/
theorem c114_decided_partial (cfg : Cfg) (hwf : cfg.WF) (s s' : Full) (hs : Full.Reach cfg s) (ops : List Full.Op) (n : Name)
    (h : Full.run cfg s ops = .ok s') (hn : StaysWaiting cfg n s ops) (ha : StaysDecided cfg n s ops) :
    countRetries cfg s ops ≤ 1 ∧ s'.now ≤ s.now + 2 * (500 + cfg.lag) := by
  have hc : countRetries cfg s ops ≤ 1 := by
    clear hwf
    induction ops using List.reverseRecOn generalizing s' with
    | nil => simp [countRetries]
    | append_singleton ops op ih =>
      have h' := h
      unfold Full.run at h'
      rw [foldRes_append] at h'
      simp only [Res.bind_eq_ok, foldRes, Res.ok.injEq] at h'
      obtain ⟨s1, h1, s2, h2, rfl⟩ := h'
      obtain ⟨h3, h4, h5⟩ := staysWaiting_snoc ops op h1 h2 hn
      obtain ⟨h6, h7⟩ := staysDecided_snoc ops op h1 h2 ha
      have h9 := ih s1 h1 h3 h6
      rw [h5]
      split
      · rename_i hr
        by_contra hgt
        exact decided_dropped hs h1 h3 (by omega) h2 hr (h7 hr).1 (h7 hr).2 h4
      · omega
  refine ⟨hc, ?_⟩
  have h1 := c73_retried cfg hwf s s' hs ops n h hn
  have h2 := Nat.mul_le_mul_left (500 + cfg.lag) (Nat.succ_le_succ hc)
  rw [Nat.mul_comm 2]
  exact h1.trans (Nat.add_le_add_left h2 _)

/-- C114 is false as stated. -/
theorem c114_false : ¬ Spec.WaitsASecond := by
  intro h
  obtain ⟨s, s', ops, h1, h2, h3, h4, h5, h6⟩ := c114_nine_hours
  have := (h patientCfg patientCfg_wf s s' ops stuckName h1 h2 h3).1
  omega

/-- Non-vacuity for C114: an Interest that is decided at a retry and waits for 201 ms. -/
example : ∃ s s' ops, Full.Reach sampleCfg s ∧ Full.run sampleCfg s ops = .ok s' ∧ StaysWaiting sampleCfg aheadInterest.name s ops ∧
    StaysDecided sampleCfg aheadInterest.name s ops ∧ countRetries sampleCfg s ops = 1 ∧ s'.now = s.now + 201 := by
  obtain ⟨s, s', h1, h2, h3, h4, h5, h6, h7, _⟩ := c73_sample
  exact ⟨s, s', _, h1, h2, h3, staysAhead_decided _ h4, h7, by rw [h5, h6]⟩

set_option synthInstance.maxSize 1024 in
/-- Non-vacuity for C114: the same Interest is answered and dropped by the first retry when the node has published /b/1 in the meantime. -/
example : (Res.bind (Full.init sampleCfg) fun s => Full.run sampleCfg s
      [.call (.addUserNode pB), .recvInterest aheadInterest, .call (.publishName pB none), .tick 101, .fireDelay]).get?.map (fun s =>
      (s.waiting.keys, (dataOf s.log).map fun d => namesIn sampleCfg d.content)) = some ([], [[pB.appendNumber 1]]) := by decide +kernel

end PSync
