import Verif.Proofs.ExampleRun
import Verif.Props.Told
/-!
Property C76: the example consumer prints everything that is published.
-/
namespace PSync
open Spec

variable {pc : Cfg} {cfg : ConsAppCfg} {P : Nat → Part} {A : Nat → ConsApp} {what : Nat → PSEv} {len : Nat}

/-- C76, up to date: the condition of C45 on applications is met by the example consumer.  Whenever it holds the IBF that
the producer had in state `r`, it has at least the numbers of that state for every subscribed prefix. -/
theorem c76_up_to_date (h : ExRun pc cfg P A what len) (hm : Matching pc cfg.consumer) (hr : Regular pc P what len)
    (ha : NackAtOnce A what len) (n : Nat) (hn : n ≤ len) (r : Nat) (hle : r ≤ len) (hi : HoldsIbf pc (A n).cons (P r)) :
    UpToDate (A n).cons (P r) :=
  c45_up_to_date_partial pc cfg.consumer P _ what len h.psrun hm hr (h.careful hm hr ha) n hn r hle hi

/-- C76, nothing invented: a number the application knows, other than 0, was published by the producer. -/
theorem c76_published (h : ExRun pc cfg P A what len) (hm : Matching pc cfg.consumer) (hr : Regular pc P what len)
    (n : Nat) (hn : n ≤ len) (p : Name) (y : Nat) (hy : (A n).cons.getSeqNo p = some y) (h0 : y ≠ 0) : PublishedAs P what n p y := by
  rcases c75_known h.psrun hm hr n hn p y hy h0 with h1 | h1
  · exact h1
  · exact (h.given hm hr hn h1).published h.psrun hn h0

/-- C76.  While the sync Interest that the example consumer has sent last is parked at the producer, the application has
printed everything: for a subscribed prefix that the producer has not removed, with the producer's number `x`, what it has
printed are the numbers up to `x`, consecutive, each once.  Since any earlier moment, when it knew the number `z`, it has printed
exactly `z + 1` to `x`. -/
theorem c76_prints_all (h : ExRun pc cfg P A what len) (hm : Matching pc cfg.consumer) (hr : Regular pc P what len)
    (ha : NackAtOnce A what len) (n : Nat) (hn : n ≤ len) (hact : (A n).cons.syncFetcher = some true) (name : Name)
    (hname : (askedUnder (cfg.consumer.syncPrefix ++ [SYNC]) (A n).cons.log).getLast? = some name)
    (hpark : name ∈ (P n).pending.keys) (p : Name) (hsub : (A n).cons.isSubscribed p = true)
    (hrem : ∀ k < n, what k ≠ .prod (.removeUserNode p)) (x : Nat) (hx : (P n).base.getSeqNo p = some x) :
    (A n).cons.getSeqNo p = some x ∧ (∃ lo, 1 ≤ lo ∧ lo ≤ x + 1 ∧ printedFor p (A n).printed = upTo lo x) ∧
      ∀ m ≤ n, ∀ z, (A m).cons.getSeqNo p = some z →
        printedFor p (A n).printed = printedFor p (A m).printed ++ upTo (z + 1) x := by
  obtain ⟨y, hy, hxy⟩ := c71_waiting pc cfg.consumer P _ what len h.psrun hm hr (h.careful hm hr ha) n hn hact name hname hpark p x hsub hx
  have hyx := c75_not_ahead h.psrun hm hr n hn p hrem (fun q hg => .inr (h.given hm hr hn hg)) y hy x hx
  have e : y = x := by omega
  subst e
  refine ⟨hy, (h.printed p hn).2 y hy, fun m hm z hz => ?_⟩
  obtain ⟨y', _, h2, h3⟩ := h.prints hm hn hz
  rw [hy, Option.some.injEq] at h2
  subst h2
  exact h3

/-- C76 when prefixes may be removed: the application has printed at least up to the producer's number. -/
theorem c76_prints_at_least (h : ExRun pc cfg P A what len) (hm : Matching pc cfg.consumer) (hr : Regular pc P what len)
    (ha : NackAtOnce A what len) (n : Nat) (hn : n ≤ len) (hact : (A n).cons.syncFetcher = some true) (name : Name)
    (hname : (askedUnder (cfg.consumer.syncPrefix ++ [SYNC]) (A n).cons.log).getLast? = some name)
    (hpark : name ∈ (P n).pending.keys) (p : Name) (hsub : (A n).cons.isSubscribed p = true)
    (x : Nat) (hx : (P n).base.getSeqNo p = some x) :
    ∃ y, x ≤ y ∧ (A n).cons.getSeqNo p = some y ∧ ∃ lo, 1 ≤ lo ∧ lo ≤ y + 1 ∧ printedFor p (A n).printed = upTo lo y := by
  obtain ⟨y, hy, hxy⟩ := c71_waiting pc cfg.consumer P _ what len h.psrun hm hr (h.careful hm hr ha) n hn hact name hname hpark p x hsub hx
  exact ⟨y, hxy, hy, (h.printed p hn).2 y hy⟩

/-! A concrete run. -/

/-- The states of the application along its events (`none`: an event at the producer). -/
def appStates (cfg : ConsAppCfg) (a : ConsApp) : List (Option ConsApp.Op) → List ConsApp
  | [] => [a]
  | none :: os => a :: appStates cfg a os
  | some op :: os => a :: appStates cfg ((ConsApp.step cfg a op).get?.getD a) os

/-- The state of the application after `n` events; its consumer is that of the run. -/
def appAt (l : List ConsApp) (r : List ((Part × Cons) × PSEv) × (Part × Cons)) (n : Nat) : ConsApp :=
  { cons := (psat r n).2, hellos := ((l[n]?).map ConsApp.hellos).getD 0, printed := ((l[n]?).map ConsApp.printed).getD [] }

def isProd : PSEv → Bool
  | .prod _ => true
  | .cons _ => false

/-- The events at the consumer are those of the application. -/
def appEvents (cfg : ConsAppCfg) (l : List ConsApp) (r : List ((Part × Cons) × PSEv) × (Part × Cons)) (ops : List (Option ConsApp.Op)) : Bool :=
  (List.range ops.length).all fun n => match ops[n]? with
    | some (some op) =>
      decide ((op = .start) ↔ (List.range n).all (fun k => isProd (pswhat r k)) = true) &&
      decide ((ConsApp.consOp cfg (appAt l r n) op).get?.map PSEv.cons = some (pswhat r n)) &&
      decide ((ConsApp.step cfg (appAt l r n) op).get? = some (appAt l r (n + 1)))
    | _ => isProd (pswhat r n) && decide (appAt l r (n + 1) = appAt l r n)

theorem Res.ok_of_get? {α : Type} {x : Res α} {a : α} (h : x.get? = some a) : x = .ok a := by
  cases x <;> simp_all [Res.get?]

theorem exrun_of {pc : Cfg} {cfg : ConsAppCfg} {as : List Act} {r : List ((Part × Cons) × PSEv) × (Part × Cons)}
    (hr : psrun pc cfg.consumer as = some r) {l : List ConsApp} {ops : List (Option ConsApp.Op)} (hlen : ops.length = as.length)
    (hinit : (ConsApp.init cfg).get? = some (appAt l r 0)) (h : appEvents cfg l r ops = true) :
    ExRun pc cfg (fun n => (psat r n).1) (appAt l r) (pswhat r) as.length := by
  have hps := psrun_sound hr
  refine ⟨hps.initP, Res.ok_of_get? hinit, fun n hn => ?_⟩
  unfold appEvents at h
  simp only [List.all_eq_true, List.mem_range] at h
  have hb := h n (by omega)
  cases hps.step n hn with
  | prod op hw hs hc =>
    refine .prod op hw hs ?_
    split at hb
    · rename_i o ho
      simp only [Bool.and_eq_true, decide_eq_true_eq, Option.map_eq_some_iff] at hb
      obtain ⟨⟨_, o', _, h2⟩, _⟩ := hb
      rw [hw] at h2; cases h2
    · simp only [Bool.and_eq_true, decide_eq_true_eq] at hb
      exact hb.2
  | cons op hw hs hp h1 h2 =>
    split at hb
    · rename_i o ho
      simp only [Bool.and_eq_true, decide_eq_true_eq, Option.map_eq_some_iff] at hb
      obtain ⟨⟨h3, o', h4, h5⟩, h6⟩ := hb
      rw [hw] at h5
      cases h5
      refine .app o op (h3.trans ?_) (Res.ok_of_get? h4) hw (Res.ok_of_get? h6) hp h1 h2
      constructor
      · intro h7 k hk
        have := h7 k hk
        unfold isProd at this
        split at this
        · exact ⟨_, by assumption⟩
        · cases this
      · intro h7 k hk
        obtain ⟨o', ho'⟩ := h7 k hk
        rw [ho']; rfl
    · simp only [Bool.and_eq_true, hw, isProd] at hb
      exact absurd hb.1 (by simp)

/-- No application nack arrives. -/
def noNack (r : List ((Part × Cons) × PSEv) × (Part × Cons)) (len : Nat) : Bool :=
  (List.range len).all fun n => match pswhat r n with
    | .cons (.syncSegment d) => decide (d.contentType ≠ .nack)
    | _ => true

theorem nackAtOnce_of {A : Nat → ConsApp} {r : List ((Part × Cons) × PSEv) × (Part × Cons)} {len : Nat} (h : noNack r len = true) :
    NackAtOnce A (pswhat r) len := by
  intro n hn d hw _ hk _
  unfold noNack at h
  simp only [List.all_eq_true, List.mem_range] at h
  have := h n (by omega)
  rw [hw] at this
  simp only [decide_eq_true_eq] at this
  exact absurd hk this

/-- The producer has published /a before the application starts.  The application is offered /a and /b, subscribes to /a and
asks; the Interest is parked until /a is published again, and the next one is parked, too. -/
def exampleScript : List Act :=
  [.prod (.addUserNode pA), .prod (.addUserNode pB), .prod (.publishName pA none), .cons (.call .sendHello), .ask, .helloPkt,
   .helloDone [.addSubscription pA 1 true, .sendSync] [], .ask, .prod (.publishName pA none), .syncPkt, .syncDone [], .ask]

/-- The events of the application in this script. -/
def exampleOps (r : List ((Part × Cons) × PSEv) × (Part × Cons)) : List (Option ConsApp.Op) :=
  (List.range 12).map fun n => match pswhat r n with
    | .cons (.call _) => some .start
    | .cons (.helloSegment d) => some (.helloSegment d)
    | .cons (.helloComplete buf _ _) => some (.helloComplete buf)
    | .cons (.syncSegment d) => some (.syncSegment d)
    | .cons (.syncComplete buf _) => some (.syncComplete buf)
    | _ => none

theorem sample_matching1 : Matching sampleCfg (sampleApp 1).consumer where
  syncPrefix := rfl
  libm := rfl
  extraSalt := rfl
  count := by decide
  filter := sample_filter1.sized
  thousandths := ⟨1, rfl, by decide, rfl⟩
  expected := by decide
  codec := none_lossless

set_option maxRecDepth 100000 in
set_option synthInstance.maxSize 1024 in
/-- Non-vacuity for C76: at the end the Interest is parked, /a has number 2, and the application has printed 1 and 2. -/
theorem c76_sample : ∃ (P : Nat → Part) (A : Nat → ConsApp) (what : Nat → PSEv) (name : Name),
    ExRun sampleCfg (sampleApp 1) P A what 12 ∧ Matching sampleCfg (sampleApp 1).consumer ∧ Regular sampleCfg P what 12 ∧
      NackAtOnce A what 12 ∧ (A 12).cons.syncFetcher = some true ∧
      (askedUnder ((sampleApp 1).consumer.syncPrefix ++ [SYNC]) (A 12).cons.log).getLast? = some name ∧ name ∈ (P 12).pending.keys ∧
      (A 12).cons.isSubscribed pA = true ∧ (P 12).base.getSeqNo pA = some 2 ∧ printedFor pA (A 12).printed = [1, 2] := by
  have hx : ((psrun sampleCfg (sampleApp 1).consumer exampleScript).map fun r =>
      let ops := exampleOps r
      let l := appStates (sampleApp 1) ⟨(psat r 0).2, 0, []⟩ ops
      (decide (ops.length = 12) && decide ((ConsApp.init (sampleApp 1)).get? = some (appAt l r 0)) &&
        appEvents (sampleApp 1) l r ops && noNack r 12) && regularB r 12 [(pA, 1), (pA, 2)] &&
      (decide ((psat r 12).2.syncFetcher = some true) &&
        (match (askedUnder ((sampleApp 1).consumer.syncPrefix ++ [SYNC]) (psat r 12).2.log).getLast? with
          | some name => decide (name ∈ (psat r 12).1.pending.keys)
          | none => false) && (psat r 12).2.isSubscribed pA && decide ((psat r 12).1.base.getSeqNo pA = some 2) &&
        decide (printedFor pA (appAt l r 12).printed = [1, 2]))) = some true := by decide +kernel
  obtain ⟨r, hr, hb⟩ := Option.of_map hx
  simp only [Bool.and_eq_true, decide_eq_true_eq] at hb
  obtain ⟨⟨⟨⟨⟨h1, h2⟩, h3⟩, h4⟩, h5⟩, ⟨⟨⟨⟨h6, h7⟩, h8⟩, h9⟩, h10⟩⟩ := hb
  split at h7
  · rename_i name hname
    exact ⟨_, appAt _ r, _, name, exrun_of hr h1 h2 h3, sample_matching1, regular_of h5 (by decide) (by decide +kernel),
      nackAtOnce_of h4, h6, hname, of_decide_eq_true h7, h8, h9, h10⟩
  · cases h7

end PSync
