import Verif.Proofs.Answer
/-!
Properties C25–C28: what a reply brings to the node that receives it.
-/
namespace PSync
open Spec

/-! ### C25 -/

/-- The full claim C25 (for replies of one segment): `r` asks, `s` answers with `d`, and `r1`, the
requester at the time it processes the reply, ends with everything `s` has. -/
def Spec.RepliesComplete : Prop :=
  ∀ cfg : Cfg, cfg.WF → 0 < cfg.expected → ∀ s s' r r1 r2 : Full, Full.Reach cfg s → Full.Reach cfg r →
    Full.Reach cfg r1 → Covers r.base.getSeqNo r1.base.getSeqNo →
    CollisionFree s.base.hist → CollisionFree r.base.hist →
    NoCollisions cfg.expected s.base.getSeqNo r.base.getSeqNo →
    ∀ i : Interest, Full.syncName cfg r.base = .ok i.name → Full.step cfg s (.recvInterest i) = .ok s' →
    ∀ ext d, s'.log = s.log ++ ext → Out.data d ∈ ext → d.finalBlock = some ⟨50, [0]⟩ →
    (∃ f, r1.fetcher = some f ∧ f.active = true) → Full.step cfg r1 (.complete d.content []) = .ok r2 →
    Covers s.base.getSeqNo r2.base.getSeqNo

/-- C25, partial: `s` receives the sync Interest of `r`, a node of the same group, and has no stored reply for
it.  Either it sends no Data, and then, if the difference of the IBFs decodes, `r` has everything `s` has; or it
publishes a non-empty list of its latest publications, sends the first segment, and whenever a node that knows
at least what `r` knew processes the reassembled reply (and does not remove prefixes from its callback), it
ends with everything `s` has.
(Missing: replies from the segment store, for which the claim is false, `c25_false`; hash collisions;
replies that do not fit into a packet with 64-bit lengths.) -/
theorem c25_reply_complete_partial (cfg cfg' : Cfg) (hsame : SameProtocol cfg cfg') (hwf : cfg.WF)
    (he : 0 < cfg.expected) (s s' r : Full) (hs : Full.Reach cfg s) (hr : Full.Reach cfg' r)
    (hcs : CollisionFree s.base.hist) (hcr : CollisionFree r.base.hist)
    (hnc : NoCollisions cfg.expected s.base.getSeqNo r.base.getSeqNo)
    (i : Interest) (hi : Full.syncName cfg' r.base = .ok i.name) (hst : s.pub.replyFromStore i.name = none)
    (h : Full.step cfg s (.recvInterest i) = .ok s') :
    ∃ ext, s'.log = s.log ++ ext ∧
    (((∀ d, Out.data d ∉ ext) ∧
        ∀ df, Table.diff cfg.fuel s.base.iblt r.base.iblt = .ok df → df.canDecode = true →
          Covers s.base.getSeqNo r.base.getSeqNo) ∨
      ∃ v buf fr segs content d, IsSegmentation (i.name.appendVersion v) buf fr segs ∧ segs.head? = some d ∧
        (∀ d', Out.data d' ∈ ext ↔ d' = d) ∧
        cfg.contentCodec.decompress buf = some (encodeNames content) ∧ content ≠ [] ∧
        (∀ n ∈ content, IsLive s.base.getSeqNo n) ∧
        (Encodable content → ∀ (r1 r2 : Full) (acts : List Full.Call), Full.Reach cfg' r1 →
          Covers r.base.getSeqNo r1.base.getSeqNo → (∃ f, r1.fetcher = some f ∧ f.active = true) →
          (∀ c ∈ acts, ∀ p, ¬ c.Removes p) → Full.step cfg' r1 (.complete buf acts) = .ok r2 →
          Covers s.base.getSeqNo r2.base.getSeqNo)) := by
  have hsi := Full.reach_inv hs
  have hb := Full.reach_steps hr
  rw [baseNew_congr hsame] at hb
  rw [syncName_congr hsame] at hi
  obtain ⟨ext, h1, h2 | ⟨content, buf, fr, d, h2, h3, h4, _, h5, h6, h7⟩⟩ := Full.answer hwf he hs hb hcs hcr hnc hi hst h
  · exact ⟨ext, h1, Or.inl h2⟩
  · refine ⟨ext, h1, Or.inr ⟨_, buf, fr, _, content, d, segmentData_spec _ _ _,
      by rw [List.head?_eq_getElem?]; exact h5, h6, ?_, h2, h3, ?_⟩⟩
    · obtain ⟨y, e1, e2⟩ := hwf.content_lossless (encodeNames content)
      rw [h4, Option.some.injEq] at e1
      rw [e1]; exact e2
    · rintro henc r1 r2 acts hr1 hcov ⟨f, hf, hfa⟩ hacts hst2
      exact Full.learn (cfg := cfg') (hsame.contentCodec ▸ hwf.content_lossless) (Full.reach_inv hr1)
        (hsame.contentCodec ▸ h4) henc (fun p x hp => hsi.lt _ _ hp) h7 hcov hf hfa hacts hst2

set_option synthInstance.maxSize 1024 in
/-- Non-vacuity for C25: the Interest of an empty node reaches a node that has published /a/2 and has no
stored reply; one Data with /a/2 is sent.  (`noCollisions_single` below shows that the last hypothesis of
the theorem holds for these two nodes.) -/
example : ((Res.bind (Full.init sampleCfg) fun s => Full.run sampleCfg s
      [.call (.addUserNode pA), .call (.publishName pA (some 2))]).get?.map (fun s =>
      (s.base.prefixes, checkHist s.base.hist, s.pub.replyFromStore emptyInterest.name,
       (Full.step sampleCfg s (.recvInterest emptyInterest)).get?.map (fun s' =>
        ((s'.log.drop s.log.length).head?).map (fun o =>
          match o with
          | .data d => namesIn sampleCfg d.content
          | _ => []))))) = some ([(pA, 2)], true, none, some (some [pA.appendNumber 2])) := by decide +kernel
example : (Full.init sampleCfg).get?.map (fun r => (r.base.prefixes, (Full.syncName sampleCfg r.base).get?))
    = some ([], some emptyInterest.name) := by decide +kernel

/-- The run of `c24_false`: an Interest of an empty node, then /a/1, /a/2 are published. -/
def staleOps : List Full.Op :=
  [.call (.addUserNode pA), .recvInterest emptyInterest, .call (.publishName pA (some 1)),
   .call (.publishName pA (some 2))]

theorem isLive_single {p : Name} {x : Nat} (hx : x ≠ 0) (n : Name) :
    IsLive (NMap.find [(p, x)]) n ↔ n = Name.appendNumber p x := by
  constructor
  · rintro ⟨q, y, hq, hy, rfl⟩
    simp only [NMap.find] at hq
    split at hq
    · rename_i h; cases hq; rw [h]
    · simp at hq
  · rintro rfl
    exact ⟨p, x, by simp [NMap.find], hx, rfl⟩

theorem isLive_nil (n : Name) : ¬ IsLive (NMap.find []) n := by
  rintro ⟨q, y, hq, _, _⟩
  simp [NMap.find] at hq

theorem noCollisions_single {p : Name} {x : Nat} (hx : x ≠ 0)
    (hne : murmurName 11#32 (Name.appendNumber p x) ≠ murmurName 11#32 (Name.appendNumber p ((x + 1) % 2 ^ 64))) (e : Nat) :
    NoCollisions e (NMap.find [(p, x)]) (NMap.find []) := by
  have hl : ∀ A B, IsHashList (NMap.find [(p, x)]) A → IsHashList (NMap.find []) B → diffCount A B ≤ 1 := by
    intro A B hA hB
    have h1 : B = [] := by
      apply List.eq_nil_iff_forall_not_mem.mpr
      intro k hk
      obtain ⟨n, hn, _⟩ := (hB.2 k).mp hk
      exact isLive_nil n hn
    subst h1
    have h2 : ∀ k, k ∈ A ↔ k = murmurName 11#32 (Name.appendNumber p x) := by
      intro k
      rw [hA.2]
      constructor
      · rintro ⟨n, hn, rfl⟩
        rw [(isLive_single hx n).mp hn]
      · rintro rfl
        exact ⟨_, (isLive_single hx _).mpr rfl, rfl⟩
    have h3 : A.Perm [murmurName 11#32 (Name.appendNumber p x)] :=
      (List.perm_ext_iff_of_nodup hA.1 (by simp)).mpr (fun k => by rw [h2]; simp)
    have := h3.length_eq
    rw [List.length_singleton] at this
    unfold diffCount
    simp
    omega
  refine ⟨?_, ?_, ?_⟩
  · have hcase : ∀ n, Compared (NMap.find [(p, x)]) (NMap.find []) n →
        n = Name.appendNumber p x ∨ n = Name.appendNumber p ((x + 1) % 2 ^ 64) := by
      rintro n (h | h | ⟨q, y, hq, _, rfl⟩)
      · exact Or.inl ((isLive_single hx n).mp h)
      · exact absurd h (isLive_nil n)
      · simp only [NMap.find] at hq
        split at hq
        · rename_i h; cases hq; rw [h]; exact Or.inr rfl
        · simp at hq
    intro n n' hn hn' heq
    rcases hcase n hn with rfl | rfl <;> rcases hcase n' hn' with rfl | rfl
    · rfl
    · exact absurd heq hne
    · exact absurd heq.symm hne
    · rfl
  · intro A B hA hB
    exact noCollision_two ((hl A B hA hB).trans (by decide))
  · intro A B hA hB
    exact lt_of_le_of_lt (hl A B hA hB) (by decide)

theorem Res.of_get? {α β : Type} {x : Res α} {f : α → β} {b : β} (h : x.get?.map f = some b) :
    ∃ a, x = .ok a ∧ f a = b := by
  cases x with
  | ok a => simp only [Res.get?, Option.map_some, Option.some.injEq] at h; exact ⟨a, rfl, h⟩
  | throw e => simp [Res.get?] at h
  | ub u => simp [Res.get?] at h
  | hang => simp [Res.get?] at h

set_option synthInstance.maxSize 1024 in
/-- C25 is false as stated: a stored reply may be out of date, so the requester ends with /a/1 although
the responder has published /a/2. -/
theorem c25_false : ¬ Spec.RepliesComplete := by
  intro h
  have key : ∃ s, (Res.bind (Full.init sampleCfg) fun s => Full.run sampleCfg s staleOps) = .ok s ∧
      (s.base.prefixes, checkHist s.base.hist,
      (Full.step sampleCfg s (.recvInterest emptyInterest)).get?.map (fun s' : Full =>
        (decide (s'.log.take s.log.length = s.log), (s'.log.drop s.log.length))))
      = ([(pA, 2)], true, some (true, [.data ⟨emptyInterest.name ++ [⟨54, [1]⟩, ⟨50, [0]⟩], .blob,
        encodeNames [pA.appendNumber 1], 1000, some ⟨50, [0]⟩⟩])) := Res.of_get? (by decide +kernel)
  have key' : ∃ r, Full.init sampleCfg = .ok r ∧
      (r.base.prefixes, r.base.hist, (Full.syncName sampleCfg r.base).get?, r.fetcher.map (·.active),
      (Full.step sampleCfg r (.complete (encodeNames [pA.appendNumber 1]) [])).get?.map (fun r' => r'.base.prefixes))
      = ([], [], some emptyInterest.name, some true, some [(pA, 1)]) := Res.of_get? (by decide +kernel)
  obtain ⟨s, h1, h2⟩ := key
  obtain ⟨r, h3, h4⟩ := key'
  simp only [Prod.mk.injEq] at h2 h4
  obtain ⟨h21, h22, h23⟩ := h2
  obtain ⟨h41, h42, h43, h44, h45⟩ := h4
  obtain ⟨s', h5, h6⟩ := Res.of_get? h23
  obtain ⟨r2, h7, h8⟩ := Res.of_get? h45
  simp only [Prod.mk.injEq, decide_eq_true_eq] at h6
  obtain ⟨n, h9, h10⟩ := Res.of_get? (f := id) (by simpa using h43)
  simp only [id] at h10
  subst h10
  have hlog : s'.log = s.log ++ s'.log.drop s.log.length := by
    conv_lhs => rw [← List.take_append_drop s.log.length s'.log, h6.1]
  rw [Res.bind_eq_ok] at h1
  obtain ⟨s0, h0, h1⟩ := h1
  have hrr : Full.Reach sampleCfg r := ⟨r, [], h3, rfl⟩
  have := h sampleCfg sampleCfg_wf (by decide) s s' r r r2 ⟨s0, _, h0, h1⟩ hrr hrr
    (fun p x hp _ => ⟨x, hp, le_refl _⟩) (collisionFree_of_check h22)
    (collisionFree_of_check (by rw [h42]; rfl)) (by
      have e1 : s.base.getSeqNo = NMap.find [(pA, 2)] := by
        funext p; rw [Base.getSeqNo, h21]
      have e2 : r.base.getSeqNo = NMap.find [] := by
        funext p; rw [Base.getSeqNo, h41]
      rw [e1, e2]
      exact noCollisions_single (by decide) (by decide +kernel) _)
    emptyInterest h9 h5 _ _ hlog (by rw [h6.2]; exact List.mem_singleton.mpr rfl) rfl (by
      cases hf : r.fetcher with
      | none => rw [hf] at h44; simp at h44
      | some f => rw [hf] at h44; simp at h44; exact ⟨f, rfl, h44⟩) h7 pA 2 (by
      rw [Base.getSeqNo, h21]; simp [NMap.find]) (by decide)
  obtain ⟨y, hy, hle⟩ := this
  rw [Base.getSeqNo, h8] at hy
  simp [NMap.find] at hy
  omega

/-! ### C26 -/

/-- `y` is the largest of `old` (if known) and the numbers announced for `p`; nothing is known if there is
no number at all. -/
def Spec.IsMaxOf (p : Name) (old : Option Nat) (ps : List (Name × Nat)) (y : Option Nat) : Prop :=
  match y with
  | none => old = none ∧ ∀ q, (p, q) ∉ ps
  | some y => (∀ x, old = some x → x ≤ y) ∧ (∀ q, (p, q) ∈ ps → q ≤ y) ∧ (old = some y ∨ (p, y) ∈ ps)

theorem best_mem (p : Name) (ps : List (Name × Nat)) : ∀ (old : Option Nat) (y : Nat), best p old ps = some y →
    old = some y ∨ (p, y) ∈ ps := by
  induction ps with
  | nil => intro old y h; exact Or.inl h
  | cons e ps ih =>
    obtain ⟨a, q⟩ := e
    intro old y h
    have h' : best p (if a = p then some (max (old.getD 0) q) else old) ps = some y := h
    by_cases ha : a = p
    · rw [if_pos ha] at h'
      subst ha
      rcases ih _ _ h' with h1 | h1
      · simp only [Option.some.injEq] at h1
        cases old with
        | none => right; simp at h1; simp [h1]
        | some x =>
          simp only [Option.getD_some] at h1
          by_cases hle : q ≤ x
          · left; rw [max_eq_left hle] at h1; rw [h1]
          · right; rw [max_eq_right (by omega)] at h1; simp [h1]
      · exact Or.inr (List.mem_cons_of_mem _ h1)
    · rw [if_neg ha] at h'
      rcases ih _ _ h' with h1 | h1
      · exact Or.inl h1
      · exact Or.inr (List.mem_cons_of_mem _ h1)

theorem best_isMax (p : Name) (old : Option Nat) (ps : List (Name × Nat)) : IsMaxOf p old ps (best p old ps) := by
  cases h : best p old ps with
  | none => exact (best_none_iff p old ps).mp h
  | some y =>
    obtain ⟨_, h1, h2⟩ := (best_le_iff p old ps y).mp ⟨y, h, le_refl _⟩
    refine ⟨?_, h2, best_mem p ps old y h⟩
    rintro x rfl
    exact h1

/-- C26: when a fetch completes and the Data is processed, every name in it announces a prefix and a number
(`ps`), and the table the application sees in the update callback (and, if it makes no call there, the table
after processing) gives every prefix the maximum of its old number and the announced ones; all other
prefixes are unchanged. -/
theorem c26_merge_max (cfg : Cfg) (s s' : Full) (hs : Full.Reach cfg s) (f : Fetcher) (hf : s.fetcher = some f)
    (ha : f.active = true) (buf : Bytes) (acts : List Full.Call) (h : Full.step cfg s (.complete buf acts) = .ok s') :
    ∃ ps b, (namesIn cfg buf).map announced = ps.map some ∧
      (∀ p, IsMaxOf p (s.base.getSeqNo p) ps (b.getSeqNo p)) ∧
      (acts = [] → s'.base = b) ∧ Base.Steps (fun p => ∃ c ∈ acts, c.Removes p) b s'.base := by
  simp only [Full.step, hf, ha, if_true] at h
  rw [Full.namesIn_eq]
  rcases Full.onSyncData_cases (s := s.stopFetcher) (show s.base.Inv from Full.reach_inv hs) h with
    ⟨h1, rfl⟩ | ⟨ns, r, h1, h2, _, h3⟩
  · rw [h1]
    refine ⟨[], s.base, rfl, fun p => best_isMax p _ [], fun _ => rfl, Relation.ReflTransGen.refl⟩
  · rw [h1]
    obtain ⟨ps, h4, h5⟩ := Full.merge_best _ h2
    refine ⟨ps, r.2, h4, fun p => ?_, ?_⟩
    · have := best_isMax p (s.base.prefixes.find p) ps
      rw [← show r.2.prefixes.find p = best p (s.base.prefixes.find p) ps from h5 p] at this
      exact this
    · rcases h3 with ⟨_, hb, rfl⟩ | ⟨_, s1, h6, _, hb, _⟩
      · rw [hb]
        exact ⟨fun _ => rfl, Relation.ReflTransGen.refl⟩
      · rw [hb]
        refine ⟨?_, Full.calls_steps h6⟩
        rintro rfl
        simp only [foldRes, Res.ok.injEq] at h6
        subst h6; rfl

/-- Non-vacuity for C26: a Data that names /a three times, out of order, and /b once. -/
example : ((Full.init sampleCfg).get?.bind fun s => (Full.step sampleCfg s (.complete
      (encodeNames [pA.appendNumber 2, pA.appendNumber 7, pB.appendNumber 1, pA.appendNumber 3]) [])).get?.map (fun s' =>
      (s.fetcher.map (·.active), s'.base.getSeqNo pA, s'.base.getSeqNo pB)))
    = some (some true, some 7, some 1) := by decide +kernel

/-! ### C27 -/

/-- C27: over any sequence of events that does not remove `p`, the ranges reported for `p` (marked `true`,
in the order of the callbacks) together with ranges published locally (marked `false`) cover the numbers
from the old one (exclusive) to the new one, without gap or overlap.  There are local ranges only if
the application published `p`. -/
theorem c27_ranges_tile (cfg : Cfg) (s s' : Full) (hs : Full.Reach cfg s) (ops : List Full.Op) (p : Name)
    (hrem : ∀ op ∈ ops, ¬ op.Removes p) (h : Full.run cfg s ops = .ok s') :
    ∃ (ext : List Out) (R : List (Bool × Nat × Nat)), s'.log = s.log ++ ext ∧
      Tiles ((s.base.getSeqNo p).getD 0) (R.map Prod.snd) ((s'.base.getSeqNo p).getD 0) ∧
      (R.filter Prod.fst).map Prod.snd = notified p ext ∧
      ((∃ op ∈ ops, op.Publishes p) ∨ ∀ e ∈ R, e.1 = true) := by
  have hinv := Full.reach_inv hs
  obtain ⟨l, h1, R, h2, h3, h4⟩ := (Full.run_micro hinv h).tiled (p := p)
    (by rintro ⟨op, ho, hr⟩; exact hrem op ho hr) hinv
  exact ⟨l, R, h1, h2, h3, h4.imp (fun ⟨_, h⟩ => h) id⟩

/-- C27 for a node that does not publish `p` itself, from the start: the reported ranges tile
1..getSeqNo(p). -/
theorem c27_remote_prefix (cfg : Cfg) (s0 s' : Full) (h0 : Full.init cfg = .ok s0) (ops : List Full.Op) (p : Name)
    (hrem : ∀ op ∈ ops, ¬ op.Removes p) (hpub : ∀ op ∈ ops, ¬ op.Publishes p) (h : Full.run cfg s0 ops = .ok s') :
    Tiles 0 (notified p s'.log) ((s'.base.getSeqNo p).getD 0) := by
  obtain ⟨ext, R, h1, h2, h3, h4⟩ := c27_ranges_tile cfg s0 s' ⟨s0, [], h0, rfl⟩ ops p hrem h
  have hb : s0.base = Base.new cfg := Full.init_base h0
  have hl : notified p s0.log = [] := by
    obtain ⟨_, is, hl, ho⟩ := Full.sendSyncInterest_log h0
    rw [hl]
    apply notified_of_not_update
    intro us hu
    rcases ho with rfl | ⟨n, _, rfl⟩ <;> simp [Full.fresh] at hu
  have hall : ∀ e ∈ R, e.1 = true := by
    rcases h4 with ⟨op, ho, hp⟩ | h
    · exact absurd hp (hpub op ho)
    · exact h
  have hR : R.filter Prod.fst = R := List.filter_eq_self.mpr hall
  rw [h1, notified_append, hl, List.nil_append, ← h3, hR]
  rw [hb] at h2
  exact h2

/-- No number is in two ranges and each is in one: what tiling means for single numbers. -/
theorem c27_exactly_once {a b : Nat} {l : List (Nat × Nat)} (h : Tiles a l b) (x : Nat) :
    l.countP (fun r => decide (r.1 ≤ x ∧ x ≤ r.2)) = if a < x ∧ x ≤ b then 1 else 0 := by
  have key : ∀ {a b : Nat} {l : List (Nat × Nat)}, Tiles a l b → a ≤ b ∧
      l.countP (fun r => decide (r.1 ≤ x ∧ x ≤ r.2)) = if a < x ∧ x ≤ b then 1 else 0 := by
    intro a b l h
    induction h with
    | nil a => simp
    | cons c l hle _ ih =>
      refine ⟨by omega, ?_⟩
      rw [List.countP_cons, ih.2]
      simp only [decide_eq_true_eq]
      split <;> split <;> split <;> omega
  exact (key h).2

/-- Non-vacuity for C27: two Data with /a (out of order, with gaps) and a local publication of /b. -/
example : ((Full.init sampleCfg).get?.bind fun s => (Full.run sampleCfg s
      [.call (.addUserNode pB), .call (.publishName pB (some 4)),
       .complete (encodeNames [pA.appendNumber 2, pB.appendNumber 6, pA.appendNumber 7]) [],
       .tick 101, .fireSync,
       .complete (encodeNames [pA.appendNumber 5, pA.appendNumber 9]) []]).get?.map (fun s' =>
      (notified pA s'.log, notified pB s'.log, s'.base.prefixes)))
    = some ([(1, 2), (3, 7), (8, 9)], [(5, 6)], [(pA, 9), (pB, 6)]) := by decide +kernel

/-! ### C28 -/

/-- The full claim C28: two runs from the same state in which the application makes no call and the same
Data are processed, in any order and any number of times, end with the same numbers and equal IBFs. -/
def Spec.OrderIrrelevant : Prop :=
  ∀ (cfg : Cfg), 0 < cfg.expected → ∀ (s s1 s2 : Full) (ops1 ops2 : List Full.Op), Full.Reach cfg s →
    (∀ op ∈ ops1, op.Quiet) → (∀ op ∈ ops2, op.Quiet) → Full.run cfg s ops1 = .ok s1 → Full.run cfg s ops2 = .ok s2 →
    (∀ buf, buf ∈ received cfg s ops1 ↔ buf ∈ received cfg s ops2) →
    (∀ p, s1.base.getSeqNo p = s2.base.getSeqNo p) ∧ s1.base.iblt = s2.base.iblt

/-- C28, the numbers: any order and any repetition of the same Data, with any other events in between
(Interests, timers, failures), give the same number for every prefix. -/
theorem c28_same_numbers (cfg : Cfg) (s s1 s2 : Full) (ops1 ops2 : List Full.Op) (hs : Full.Reach cfg s)
    (hq1 : ∀ op ∈ ops1, op.Quiet) (hq2 : ∀ op ∈ ops2, op.Quiet) (h1 : Full.run cfg s ops1 = .ok s1)
    (h2 : Full.run cfg s ops2 = .ok s2) (hsame : ∀ buf, buf ∈ received cfg s ops1 ↔ buf ∈ received cfg s ops2) (p : Name) :
    s1.base.getSeqNo p = s2.base.getSeqNo p := by
  obtain ⟨ps1, e1, b1⟩ := Full.run_best hq1 (Full.reach_inv hs) h1
  obtain ⟨ps2, e2, b2⟩ := Full.run_best hq2 (Full.reach_inv hs) h2
  rw [Base.getSeqNo, Base.getSeqNo, b1, b2]
  apply best_congr
  intro e
  have k1 : e ∈ ps1 ↔ some e ∈ ((received cfg s ops1).flatMap (namesIn cfg)).map announced := by rw [e1]; simp
  have k2 : e ∈ ps2 ↔ some e ∈ ((received cfg s ops2).flatMap (namesIn cfg)).map announced := by rw [e2]; simp
  rw [k1, k2]
  simp only [List.mem_map, List.mem_flatMap]
  constructor
  · rintro ⟨n, ⟨buf, hb, hn⟩, he⟩; exact ⟨n, ⟨buf, (hsame buf).mp hb, hn⟩, he⟩
  · rintro ⟨n, ⟨buf, hb, hn⟩, he⟩; exact ⟨n, ⟨buf, (hsame buf).mpr hb, hn⟩, he⟩

/-- C28, the IBFs, partial: they are equal if no two publications that were current together had the same
hash (missing: histories with such a collision, `c28_false`). -/
theorem c28_same_ibf_partial (cfg : Cfg) (he : 0 < cfg.expected) (s s1 s2 : Full) (ops1 ops2 : List Full.Op)
    (hs : Full.Reach cfg s) (hq1 : ∀ op ∈ ops1, op.Quiet) (hq2 : ∀ op ∈ ops2, op.Quiet)
    (h1 : Full.run cfg s ops1 = .ok s1) (h2 : Full.run cfg s ops2 = .ok s2)
    (hsame : ∀ buf, buf ∈ received cfg s ops1 ↔ buf ∈ received cfg s ops2)
    (hc1 : CollisionFree s1.base.hist) (hc2 : CollisionFree s2.base.hist) :
    s1.base.iblt = s2.base.iblt := by
  have hn := c28_same_numbers cfg s s1 s2 ops1 ops2 hs hq1 hq2 h1 h2 hsame
  obtain ⟨s0, ops, h0, hr⟩ := hs
  have r1 : Full.Reach cfg s1 := ⟨s0, ops ++ ops1, h0, by rw [Full.run, foldRes_append, ← Full.run, hr]; exact h1⟩
  have r2 : Full.Reach cfg s2 := ⟨s0, ops ++ ops2, h0, by rw [Full.run, foldRes_append, ← Full.run, hr]; exact h2⟩
  exact (c22_same_ibf_partial cfg cfg he rfl s1.base s2.base (Or.inl ⟨s1, r1, rfl⟩) (Or.inl ⟨s2, r2, rfl⟩) hc1 hc2
    (fun p x _ => by rw [hn p])).1

/-- Two orders of the same three Data: /xvm/1, /akqi/1, /akqi/2 (the first two have the same hash). -/
def orderOne : List Full.Op :=
  [.complete (encodeNames [pX.appendNumber 1]) [], .tick 101, .fireSync,
   .complete (encodeNames [pY.appendNumber 1]) [], .tick 202, .fireSync,
   .complete (encodeNames [pY.appendNumber 2]) []]
def orderTwo : List Full.Op :=
  [.complete (encodeNames [pY.appendNumber 2]) [], .tick 101, .fireSync,
   .complete (encodeNames [pY.appendNumber 1]) [], .tick 1202, .fireSync,
   .complete (encodeNames [pX.appendNumber 1]) []]


set_option synthInstance.maxSize 1024 in
theorem order_run : ((Full.init sampleCfg).get?.map (fun s =>
      ((Full.run sampleCfg s orderOne).get?.map (fun s1 => s1.base.prefixes),
       (Full.run sampleCfg s orderTwo).get?.map (fun s2 => s2.base.prefixes),
       decide ((Full.run sampleCfg s orderOne).get?.map (fun s1 => s1.base.iblt)
        = (Full.run sampleCfg s orderTwo).get?.map (fun s1 => s1.base.iblt)),
       received sampleCfg s orderOne, received sampleCfg s orderTwo)))
    = some (some [(pX, 1), (pY, 2)], some [(pX, 1), (pY, 2)], false,
      [encodeNames [pX.appendNumber 1], encodeNames [pY.appendNumber 1], encodeNames [pY.appendNumber 2]],
      [encodeNames [pY.appendNumber 2], encodeNames [pY.appendNumber 1], encodeNames [pX.appendNumber 1]]) := by
  decide +kernel

/-- C28 is false as stated: with a hash collision the IBFs differ. -/
theorem c28_false : ¬ Spec.OrderIrrelevant := by
  intro h
  obtain ⟨s, h1, h2⟩ := Res.of_get? order_run
  simp only [Prod.mk.injEq, decide_eq_false_iff_not] at h2
  obtain ⟨h3, h4, h5, h6, h7⟩ := h2
  obtain ⟨s1, h8, _⟩ := Res.of_get? h3
  obtain ⟨s2, h9, _⟩ := Res.of_get? h4
  have := (h sampleCfg (by decide) s s1 s2 orderOne orderTwo ⟨s, [], h1, rfl⟩
    (by intro op hop; simp only [orderOne, List.mem_cons, List.not_mem_nil, or_false] at hop
        rcases hop with rfl | rfl | rfl | rfl | rfl | rfl | rfl <;> simp [Full.Op.Quiet])
    (by intro op hop; simp only [orderTwo, List.mem_cons, List.not_mem_nil, or_false] at hop
        rcases hop with rfl | rfl | rfl | rfl | rfl | rfl | rfl <;> simp [Full.Op.Quiet]) h8 h9
    (by intro buf; rw [h6, h7]; simp only [List.mem_cons, List.not_mem_nil, or_false]; tauto)).2
  apply h5
  rw [h8, h9]
  simp [Res.get?, this]

set_option synthInstance.maxSize 1024 in
/-- Non-vacuity for the two theorems above: `order_run` (numbers); with /a and /b there is no collision. -/
example : ((Full.init sampleCfg).get?.map (fun s =>
      ((Full.run sampleCfg s [.complete (encodeNames [pA.appendNumber 1, pB.appendNumber 4]) [], .tick 101, .fireSync,
          .complete (encodeNames [pA.appendNumber 3]) []]).get?.map (fun s1 => (s1.base.prefixes, checkHist s1.base.hist)),
       (Full.run sampleCfg s [.complete (encodeNames [pA.appendNumber 3]) [], .tick 101, .fireSync,
          .complete (encodeNames [pA.appendNumber 1, pB.appendNumber 4]) [], .tick 202, .fireSync,
          .complete (encodeNames [pA.appendNumber 3]) []]).get?.map
            (fun s1 => (s1.base.prefixes, checkHist s1.base.hist)))))
    = some (some ([(pA, 3), (pB, 4)], true), some ([(pA, 3), (pB, 4)], true)) := by decide +kernel

end PSync
