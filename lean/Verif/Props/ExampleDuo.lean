import Verif.Proofs.ExampleDuo
import Verif.Props.ExampleRun
import Verif.Props.PubSubPrompt
/-!
Property C85: the example consumer prints a publication within a bounded time.
-/
namespace PSync
open Spec

variable {pcfg : PubAppCfg} {cfg : ConsAppCfg} {P : Nat → Part} {A : Nat → ConsApp} {B : Nat → PartApp} {what : Nat → PSEv} {m len : Nat}

/-- C85, with any producer that removes no prefix.  From event `n0` on, when neither clock shows more than `X`, packets take at
most `Δ` ms; the clocks differ by at most `δ`, and no fetch goes on for more than `L` ms.  If the example consumer is subscribed
to `p` then, and the producer has number `x`, then the consumer has a number `z`, and before the consumer's clock shows more than `T` the
application has printed, on top of what it had printed, exactly the numbers from `z + 1` to some `y` that is at least `x` and
that the producer has reached. -/
theorem c85_prints {pc : Cfg} (h : ExRun pc cfg P A what len) (hm : Matching pc cfg.consumer) (hr : Regular pc P what len)
    (ha : NackAtOnce A what len) (hrem : ∀ k < len, ∀ p, what k ≠ .prod (.removeUserNode p)) (hj : ∀ n, cfg.consumer.jitter n ≤ 500)
    (L : Nat) (hL : FetchesEnd cfg.consumer L (fun n => (A n).cons) len)
    (δ : Nat) (hclock : ∀ n < len, ∀ i, what n = .prod (.recvInterest i) → (A n).cons.now ≤ (P n).now + δ)
    (n0 : Nat) (hn0 : n0 ≤ len) (X : Nat) (hX : (P n0).now ≤ X ∧ (A n0).cons.now ≤ X)
    (Δ : Nat) (hp : PSPrompt cfg.consumer Δ P (fun n => (A n).cons) what n0 len)
    (T : Nat) (hT : T = X + max pc.freshness pc.helloFreshness + pc.lag + δ + (2 * L + 500 + cfg.consumer.lag) + 2 * Δ)
    (hlong : T < (A len).cons.now) (p : Name) (hsub : (A n0).cons.isSubscribed p = true)
    (x : Nat) (hx : (P n0).base.getSeqNo p = some x) :
    ∃ n y z, n0 ≤ n ∧ n ≤ len ∧ (A n).cons.now ≤ T ∧ x ≤ y ∧ (A n0).cons.getSeqNo p = some z ∧ (A n).cons.getSeqNo p = some y ∧
      printedFor p (A n).printed = printedFor p (A n0).printed ++ upTo (z + 1) y ∧
      ∀ w, (P n).base.getSeqNo p = some w → y ≤ w := by
  have hs : ∃ k < n0, ∃ o, what k = .cons o := by
    by_contra hno
    have hun := h.untouched hn0 (fun k hk => by
      cases hw : what k with
      | prod o => exact ⟨o, rfl⟩
      | cons o => exact absurd ⟨k, hk, o, hw⟩ hno)
    rw [hun] at hsub
    have h1 := h.initA
    unfold ConsApp.init at h1
    simp only [Res.bind_eq_ok, Res.ok.injEq] at h1
    obtain ⟨c, h2, h3⟩ := h1
    rw [← h3] at hsub
    unfold Cons.init at h2
    rw [Res.bind_eq_ok] at h2
    obtain ⟨bf, _, h4⟩ := h2
    simp only [Res.ok.injEq] at h4
    rw [← h4] at hsub
    cases hsub
  obtain ⟨b, hb1, hb2⟩ := h.starts hn0 hs
  obtain ⟨n, h1, h2, h3, h4⟩ := c83_time h.psrun hm hr (h.careful hm hr ha) hrem hj (fun n hn op hw => h.goesOn hn hw) L hL δ hclock b n0
    hb2 hb1 hn0 X hX Δ hp T hT hlong
  obtain ⟨y, h5, h6⟩ := h4 p x (h.stays h1 h2 hsub) hx
  obtain ⟨bf0, _, hi⟩ := (h.reach hn0).moment.inv
  obtain ⟨z, hz⟩ := Option.isSome_iff_exists.mp (hi.sub p hsub)
  refine ⟨n, y, z, h1, h2, h3, h6, hz, h5, ?_, fun w hw => c75_not_ahead h.psrun hm hr n h2 p (fun k hk => hrem k (by omega) p)
    (fun q hg => .inr (h.given hm hr h2 hg)) y h5 w hw⟩
  obtain ⟨y', _, h7, h8⟩ := h.prints h1 h2 hz
  rw [h5, Option.some.injEq] at h7
  rw [h7]
  exact h8

/-- C85, the two programs together.  The example producer publishes every stream `limit` times, with at most `D` ms between
two updates, none of which runs more than `late` ms after its time.  At event `n0` its clock has passed `limit * (D + late)`.
From then on packets take at most `Δ` ms.  A stream `p` is subscribed then.  Then from some event on, at which the consumer's
clock does not show more than `T`, the producer has printed 1 to `limit` for `p`, and the consumer consecutive numbers up to
`limit`, each once. -/
theorem c85_programs (h : ExRun pcfg.pc cfg P A what len) (hpr : Produces pcfg P B what m len) (hnd : pcfg.streams.Nodup)
    (D late : Nat) (hD : ∀ k, pcfg.delay k ≤ D) (hlate : InTime late B m len) (hlim : 1 ≤ pcfg.limit)
    (hm : Matching pcfg.pc cfg.consumer) (hr : Regular pcfg.pc P what len)
    (ha : NackAtOnce A what len) (hj : ∀ n, cfg.consumer.jitter n ≤ 500)
    (L : Nat) (hL : FetchesEnd cfg.consumer L (fun n => (A n).cons) len)
    (δ : Nat) (hclock : ∀ n < len, ∀ i, what n = .prod (.recvInterest i) → (A n).cons.now ≤ (P n).now + δ)
    (n0 : Nat) (hmn : m ≤ n0) (hn0 : n0 ≤ len) (hpast : pcfg.limit * (D + late) < (P n0).now)
    (X : Nat) (hX : (P n0).now ≤ X ∧ (A n0).cons.now ≤ X)
    (Δ : Nat) (hp : PSPrompt cfg.consumer Δ P (fun n => (A n).cons) what n0 len)
    (T : Nat) (hT : T = X + max pcfg.pc.freshness pcfg.pc.helloFreshness + pcfg.pc.lag + δ + (2 * L + 500 + cfg.consumer.lag) + 2 * Δ)
    (hlong : T < (A len).cons.now) (p : Name) (hps : p ∈ pcfg.streams) (hsub : (A n0).cons.isSubscribed p = true) :
    ∃ n, n0 ≤ n ∧ n ≤ len ∧ (A n).cons.now ≤ T ∧ ∀ n', n ≤ n' → n' ≤ len →
      (A n').cons.getSeqNo p = some pcfg.limit ∧ printedFor p (B n').published = upTo 1 pcfg.limit ∧
      ∃ lo, 1 ≤ lo ∧ lo ≤ pcfg.limit + 1 ∧ printedFor p (A n').printed = upTo lo pcfg.limit := by
  have fin : ∀ n', n0 ≤ n' → n' ≤ len → (P n').base.getSeqNo p = some pcfg.limit ∧ printedFor p (B n').published = upTo 1 pcfg.limit :=
    fun n' g1 g2 => hpr.finished h hnd hD hlate hlim (by omega) g2 (lt_of_lt_of_le hpast (h.psrun.nowP g1 g2)) hps
  obtain ⟨n, y, _, h1, h2, h3, h4, _, h5, _, h6⟩ := c85_prints h hm hr ha hpr.keepsAll hj L hL δ hclock n0 hn0 X hX Δ hp T hT hlong p hsub
    pcfg.limit (fin n0 (le_refl _) hn0).1
  have h7 := h6 _ (fin n h1 h2).1
  have e : y = pcfg.limit := by omega
  subst e
  refine ⟨n, h1, h2, h3, fun n' g1 g2 => ?_⟩
  obtain ⟨y', h8, h9, _⟩ := h.prints g1 g2 h5
  have h10 := c75_not_ahead h.psrun hm hr n' g2 p (fun k hk => hpr.keepsAll k (by omega) p)
    (fun q hg => .inr (h.given hm hr g2 hg)) y' h9 _ (fin n' (by omega) g2).1
  have e : y' = pcfg.limit := by omega
  rw [e] at h9
  exact ⟨h9, (fin n' (by omega) g2).2, (h.printed p g2).2 _ h9⟩

/-! ### Sample run -/

/-- The example consumer subscribes to one prefix and waits 300 ms before it asks again. -/
def duoConsApp : ConsAppCfg := { sampleApp 1 with cc := paceCfg }

/-- The example producer publishes /a twice, 100 ms apart. -/
def duoPubApp : PubAppCfg := { pc := sampleCfg, stream := fun _ => pA, num := 1, maxPublish := 2, delay := fun _ => 100 }

theorem duo_matching : Matching duoPubApp.pc duoConsApp.consumer where
  syncPrefix := rfl
  libm := rfl
  extraSalt := rfl
  count := by decide
  filter := sample_filter1.sized
  thousandths := ⟨1, rfl, by decide, rfl⟩
  expected := by decide
  codec := none_lossless

/-- The reply to the waiting Interest that the first update causes is lost; the second update finds no Interest waiting.  From
event 12 on packets take no time; the consumer's Interests time out after 400 ms.  The first reply after that is the lost one,
from the segment store; the next brings the second update. -/
def duoScript : List Act :=
  [.prod (.addUserNode pA), .cons (.call .sendHello), .ask, .helloPkt, .helloDone [.addSubscription pA 0 true, .sendSync] [], .ask,
   .prod (.tick 100), .prod (.publishName pA none), .prod (.tick 200), .prod (.publishName pA none), .prod (.tick 201), .cons (.tick 201),
   .prod (.tick 400), .cons (.tick 400), .cons (.syncError true), .ask, .syncPkt, .syncDone [], .ask, .syncPkt, .syncDone [], .ask,
   .prod (.tick 800), .cons (.tick 800), .cons (.syncError true), .ask,
   .prod (.tick 1000), .prod .fireStore, .prod (.tick 1100), .prod .fireStore, .prod (.tick 1200), .cons (.tick 1200), .cons (.syncError true), .ask,
   .prod (.tick 1400), .prod .fireStore, .prod (.tick 1600), .cons (.tick 1600), .cons (.syncError true), .ask,
   .prod (.tick 2000), .cons (.tick 2000), .cons (.syncError true), .ask,
   .prod (.tick 2400), .cons (.tick 2400), .cons (.syncError true), .ask, .prod (.tick 2502), .cons (.tick 2502)]

/-- The events of the consumer program in this script. -/
def duoOps (r : List ((Part × Cons) × PSEv) × (Part × Cons)) : List (Option ConsApp.Op) :=
  (List.range 50).map fun n => match pswhat r n with
    | .cons (.call _) => some .start
    | .cons (.helloSegment d) => some (.helloSegment d)
    | .cons (.helloComplete buf _ _) => some (.helloComplete buf)
    | .cons (.syncSegment d) => some (.syncSegment d)
    | .cons (.syncComplete buf _) => some (.syncComplete buf)
    | .cons (.syncError t) => some (.syncError t)
    | .cons (.tick t) => some (.tick t)
    | _ => none

/-- The states of the producer program along the events. -/
def pubStates (pcfg : PubAppCfg) (b : PartApp) : List PSEv → List PartApp
  | [] => [b]
  | .cons _ :: es => b :: pubStates pcfg b es
  | .prod (.publishName _ _) :: es => b :: pubStates pcfg ((PartApp.step pcfg b .update).get?.getD b) es
  | .prod op :: es => b :: pubStates pcfg ((PartApp.step pcfg b (.prod op)).get?.getD b) es

/-- The state after `n` events; its producer is that of the run. -/
def pubAt (l : List PartApp) (r : List ((Part × Cons) × PSEv) × (Part × Cons)) (n : Nat) : PartApp :=
  { prod := (psat r n).1, timers := ((l[n]?).map PartApp.timers).getD [], draws := ((l[n]?).map PartApp.draws).getD 0,
    published := ((l[n]?).map PartApp.published).getD [] }

/-- The events at the producer are those of the program, one stream. -/
def producesB (pcfg : PubAppCfg) (l : List PartApp) (r : List ((Part × Cons) × PSEv) × (Part × Cons)) (len : Nat) : Bool :=
  decide (pcfg.streams.map (fun p => PSEv.prod (.addUserNode p)) = [pswhat r 0]) &&
  decide ((PartApp.init pcfg).get? = some (pubAt l r 1)) &&
  (List.range len).all fun n => decide (n = 0) || (match pswhat r n with
    | .cons _ => decide (pubAt l r (n + 1) = pubAt l r n)
    | .prod (.publishName p none) =>
      decide ((takeDueName (psat r n).1.now (pubAt l r n).timers).map Prod.fst = some p) &&
      decide ((PartApp.step pcfg (pubAt l r n) .update).get? = some (pubAt l r (n + 1)))
    | .prod op => PartApp.outside op && decide ((PartApp.step pcfg (pubAt l r n) (.prod op)).get? = some (pubAt l r (n + 1))))

theorem produces_of {pcfg : PubAppCfg} {l : List PartApp} {r : List ((Part × Cons) × PSEv) × (Part × Cons)} {len : Nat}
    (h : producesB pcfg l r len = true) : Produces pcfg (fun n => (psat r n).1) (pubAt l r) (pswhat r) 1 len := by
  unfold producesB at h
  simp only [Bool.and_eq_true, decide_eq_true_eq, List.all_eq_true, List.mem_range, Bool.or_eq_true] at h
  obtain ⟨⟨h1, h2⟩, h3⟩ := h
  refine ⟨h1, Res.ok_of_get? h2, fun _ _ _ => rfl, fun n hn hl o hw => ?_, fun n hn hl op hw => ?_⟩
  · have := h3 n hl
    rw [hw] at this
    simp only [decide_eq_true_eq] at this
    exact this.resolve_left (by omega)
  · have h4 := (h3 n hl).resolve_left (by omega)
    rw [hw] at h4
    split at h4
    · rename_i he; cases he
    · rename_i p he
      cases he
      simp only [Bool.and_eq_true, decide_eq_true_eq, Option.map_eq_some_iff] at h4
      obtain ⟨⟨⟨q, ts⟩, h5, h6⟩, h7⟩ := h4
      cases h6
      exact .inr ⟨_, ts, h5, rfl, Res.ok_of_get? h7⟩
    · rename_i op' _ he
      cases he
      simp only [Bool.and_eq_true, decide_eq_true_eq] at h4
      exact .inl ⟨h4.1, Res.ok_of_get? h4.2⟩

/-- All conditions of C85 on the events. -/
def duoAllB (r : List ((Part × Cons) × PSEv) × (Part × Cons)) : Bool :=
  let ops := duoOps r
  let l := appStates duoConsApp ⟨(psat r 0).2, 0, []⟩ ops
  let b := pubStates duoPubApp ((PartApp.init duoPubApp).get?.getD ⟨(psat r 1).1, [], 0, []⟩) ((List.range' 1 49).map (pswhat r))
  let b := b.head?.toList ++ b
  (decide (ops.length = 50) && decide ((ConsApp.init duoConsApp).get? = some (appAt l r 0)) && appEvents duoConsApp l r ops && noNack r 50) &&
  producesB duoPubApp b r 50 &&
  ((List.range 51).all fun n => decide (n = 0) || (pubAt b r n).timers.all fun e => decide ((psat r n).1.now ≤ e.1)) &&
  regularB r 50 [(pA, 1), (pA, 2)] && psEndsB duoConsApp.consumer 400 r 50 &&
  (List.range 50).all (fun k =>
    (match pswhat r k with
      | .prod (.recvInterest _) => decide ((psat r k).2.now ≤ (psat r k).1.now)
      | _ => true) &&
    (decide (k < 12) ||
      (exchangedB r 50 (duoConsApp.consumer.syncPrefix ++ [HELLO]) (fun s => decide (s.helloFetcher = some true)) helloSegOf isHelloDone k &&
       exchangedB r 50 (duoConsApp.consumer.syncPrefix ++ [SYNC]) (fun s => decide (s.syncFetcher = some true)) syncSegOf isSyncDone k))) &&
  (decide ((psat r 12).1.now = 201) && decide ((psat r 12).2.now = 201) && decide ((psat r 50).2.now = 2502) && (psat r 12).2.isSubscribed pA &&
    decide ((appAt l r 12).printed = []))

set_option maxRecDepth 100000 in
set_option synthInstance.maxSize 1024 in
theorem duo_checked : ((psrun sampleCfg duoConsApp.consumer duoScript).map duoAllB) = some true := by decide +kernel

/-- Non-vacuity for C85: at event 12 the producer has published /a twice, and the consumer, which is subscribed, has printed
nothing; the run reaches the time at which C85 says that both numbers are printed. -/
theorem c85_sample : ∃ (P : Nat → Part) (A : Nat → ConsApp) (B : Nat → PartApp) (what : Nat → PSEv),
    ExRun duoPubApp.pc duoConsApp P A what 50 ∧ Produces duoPubApp P B what 1 50 ∧ duoPubApp.streams.Nodup ∧
    (∀ k, duoPubApp.delay k ≤ 100) ∧ InTime 0 B 1 50 ∧ 1 ≤ duoPubApp.limit ∧ Matching duoPubApp.pc duoConsApp.consumer ∧
    Regular duoPubApp.pc P what 50 ∧ NackAtOnce A what 50 ∧ (∀ n, duoConsApp.consumer.jitter n ≤ 500) ∧
    FetchesEnd duoConsApp.consumer 400 (fun n => (A n).cons) 50 ∧
    (∀ n < 50, ∀ i, what n = .prod (.recvInterest i) → (A n).cons.now ≤ (P n).now + 0) ∧
    duoPubApp.limit * (100 + 0) < (P 12).now ∧ ((P 12).now ≤ 201 ∧ (A 12).cons.now ≤ 201) ∧
    PSPrompt duoConsApp.consumer 0 P (fun n => (A n).cons) what 12 50 ∧
    201 + max duoPubApp.pc.freshness duoPubApp.pc.helloFreshness + duoPubApp.pc.lag + 0 + (2 * 400 + 500 + duoConsApp.consumer.lag) + 2 * 0
      < (A 50).cons.now ∧
    pA ∈ duoPubApp.streams ∧ (A 12).cons.isSubscribed pA = true ∧ (A 12).printed = [] := by
  obtain ⟨r, hr, hb⟩ := Option.of_map duo_checked
  unfold duoAllB at hb
  simp only [Bool.and_eq_true, decide_eq_true_eq, List.all_eq_true, List.mem_range, Bool.or_eq_true] at hb
  obtain ⟨⟨⟨⟨⟨⟨⟨⟨⟨h1, h2⟩, h3⟩, h4⟩, h5⟩, h6⟩, h7⟩, h8⟩, h9⟩, ⟨⟨⟨h10, h11⟩, h12⟩, h13⟩, h14⟩ := hb
  refine ⟨_, appAt _ r, pubAt _ r, _, exrun_of hr h1 h2 h3, produces_of h5, by decide +kernel, fun _ => le_refl _, ?_, by decide, duo_matching,
    regular_of h7 (by decide) (by decide +kernel), nackAtOnce_of h4, fun _ => by simp [duoConsApp, ConsAppCfg.consumer, paceCfg], psEnds_of h8, ?_, ?_,
    ⟨le_of_eq h10, le_of_eq h11⟩, ⟨?_, ?_⟩, ?_, by decide +kernel, h13, h14⟩
  · intro n hn hl e he
    have := (h6 n (by omega)).resolve_left (by omega) e he
    exact this
  · intro k hk i hw
    have h15 := (h9 k hk).1
    rw [hw] at h15
    exact of_decide_eq_true h15
  · simp only [h10]; decide
  · intro k hk0 hk hne hlt
    have h15 := (h9 k hk).2.resolve_left (by omega)
    have := exchanged_of (seg := .helloSegment) (done := fun op => ∃ buf a1 a2, op = .helloComplete buf a1 a2)
      helloSegOf_iff (fun e he => by unfold isHelloDone at he; split at he; exacts [⟨_, rfl, _, _, _, rfl⟩, by cases he]) h15.1 hne hlt
    simp only [decide_eq_true_eq] at this
    exact this
  · intro k hk0 hk hne hlt
    have h15 := (h9 k hk).2.resolve_left (by omega)
    have := exchanged_of (seg := .syncSegment) (done := fun op => ∃ buf acts, op = .syncComplete buf acts)
      syncSegOf_iff (fun e he => by unfold isSyncDone at he; split at he; exacts [⟨_, rfl, _, _, rfl⟩, by cases he]) h15.2 hne hlt
    simp only [decide_eq_true_eq] at this
    exact this
  · have : (appAt (appStates duoConsApp ⟨(psat r 0).2, 0, []⟩ (duoOps r)) r 50).cons.now = 2502 := h12
    rw [this]
    decide

end PSync
