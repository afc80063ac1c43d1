import Verif.Proofs.PubSub
import Verif.Props.PubSubSample
import Verif.Props.Group
/-!
Property C45: a subscriber never misses an update.
-/
namespace PSync
open Spec

/-- C45 as stated: in any run of a producer and a consumer, the consumer is up to date with the IBF it holds. -/
def Spec.NeverMisses : Prop :=
  ∀ (pc : Cfg) (cc : CCfg) (P : Nat → Part) (C : Nat → Cons) (what : Nat → PSEv) (len : Nat),
    PSRun pc cc P C what len → Matching pc cc → Regular pc P what len →
    ∀ n ≤ len, ∀ r ≤ len, HoldsIbf pc (C n) (P r) → UpToDate (C n) (P r)

/-- C45, for applications that add subscriptions only while no sync Interest is pending, and with a number not below
the producer's at the time of the IBF the consumer holds (`Careful`).  Whenever the consumer holds the IBF
that the producer had in state `r`, it has at least the numbers of that state for every subscribed
prefix.  Interests and Data may be lost, delayed, duplicated, reordered and served from caches, the producer may
receive any other Interests, and prefixes may be removed.  Missing: the false case `c45_false`. -/
theorem c45_up_to_date_partial (pc : Cfg) (cc : CCfg) (P : Nat → Part) (C : Nat → Cons) (what : Nat → PSEv) (len : Nat)
    (h : PSRun pc cc P C what len) (hm : Matching pc cc) (hr : Regular pc P what len) (hc : Careful pc P C what len)
    (n : Nat) (hn : n ≤ len) (r : Nat) (hle : r ≤ len) (hi : HoldsIbf pc (C n) (P r)) : UpToDate (C n) (P r) := by
  obtain ⟨c, hcomp, hib⟩ := hi
  rcases (h.held hm hr hc hn).1 with h0 | ⟨b, c', hb, hcomp', hib', hupd⟩
  · rw [hib] at h0; cases h0
  rw [hib] at hib'
  simp only [List.cons.injEq, and_true] at hib'
  subst hib'
  have hG := h.sendable hm
  have ht : (P r).base.iblt = b.iblt := by
    have h1 := hG _ ⟨r, hle, rfl⟩ c hcomp
    rw [hG b hb c hcomp', Res.ok.injEq] at h1
    exact h1.symm
  intro p x hp hx
  have hcmp := h.comparable hr
  by_cases hx0 : x = 0
  · obtain ⟨_, _, hinv⟩ := (h.momentC hn).inv
    obtain ⟨y, hy⟩ := Option.isSome_iff_exists.mp (hinv.sub p hp)
    exact ⟨y, hy, by omega⟩
  · obtain ⟨p', x', h1, h2, h3⟩ := hcmp.same hm.expected ⟨r, hle, rfl⟩ hb ht ⟨p, x, hx, hx0, rfl⟩
    obtain ⟨rfl, rfl⟩ := appendNumber_inj' ((hcmp.inv _ ⟨r, hle, rfl⟩).lt p x hx) ((hcmp.inv b hb).lt p' x' h1) h3
    exact hupd p x hp h1

/-! Concrete runs. -/

theorem sample_matching : Matching sampleCfg sampleCCfg where
  syncPrefix := rfl
  libm := rfl
  extraSalt := rfl
  count := by decide
  filter := ⟨_, sample_fresh⟩
  thousandths := ⟨1, rfl, by decide, rfl⟩
  expected := by decide
  codec := none_lossless

instance decNoneAdded : (busy : Bool) → (cs : List Cons.Call) → Decidable (NoneAdded busy cs)
  | _, [] => isTrue trivial
  | busy, .addSubscription _ _ _ :: cs => @instDecidableAnd _ _ _ (decNoneAdded busy cs)
  | _, .sendSync :: cs => decNoneAdded true cs
  | _, .stop :: cs => decNoneAdded false cs
  | busy, .removeSubscription _ :: cs => decNoneAdded busy cs
  | busy, .sendHello :: cs => decNoneAdded busy cs

instance (s : Cons) (op : Cons.Op) : Decidable (AddsInTime s op) := by
  cases op <;> simp only [AddsInTime] <;> infer_instance

def addsOf (op : Cons.Op) : Bool :=
  (callsIn op).any (fun c => match c with | .addSubscription _ _ _ => true | _ => false)

/-- The application adds subscriptions only before it holds an IBF. -/
def carefulB (r : List ((Part × Cons) × PSEv) × (Part × Cons)) (len : Nat) : Bool :=
  (List.range len).all fun n => match pswhat r n with
    | .cons op => decide (AddsInTime (psat r n).2 op) && (!addsOf op || decide ((psat r (n + 1)).2.iblt = []))
    | _ => true

theorem careful_of {pc : Cfg} {r : List ((Part × Cons) × PSEv) × (Part × Cons)} {len : Nat} (h : carefulB r len = true) :
    Careful pc (fun n => (psat r n).1) (fun n => (psat r n).2) (pswhat r) len := by
  unfold carefulB at h
  simp only [List.all_eq_true, List.mem_range] at h
  refine ⟨fun n hn op hw => ?_, ?_⟩
  · have := h n hn
    rw [hw] at this
    simp only [Bool.and_eq_true, decide_eq_true_eq] at this
    exact this.1
  · rintro n hn op p q cb hw hmem r' _ ⟨c, _, hib⟩ x _
    have := h n hn
    rw [hw] at this
    simp only [Bool.and_eq_true, decide_eq_true_eq, Bool.or_eq_true] at this
    rcases this.2 with h1 | h1
    · exfalso
      have : addsOf op = true := List.any_eq_true.mpr ⟨_, hmem, rfl⟩
      rw [this] at h1
      cases h1
    · rw [h1] at hib; cases hib

/-- A run of the sample producer in which only pA and pB are registered, and at most the two numbers in `ps` are
published. -/
def regularB (r : List ((Part × Cons) × PSEv) × (Part × Cons)) (len : Nat) (ps : List (Name × Nat)) : Bool :=
  (List.range len).all (fun n => match pswhat r n with
    | .prod (.addUserNode p) => decide (p = pA ∨ p = pB)
    | _ => true) &&
  (psat r len).1.replies.all (fun e => decide (e.2.1.length < 1000)) &&
  decide ((psat r len).1.replies.length < 1000) && decide ((psat r len).1.made = ps)

theorem regular_of {r : List ((Part × Cons) × PSEv) × (Part × Cons)} {len : Nat} {ps : List (Name × Nat)} (h : regularB r len ps = true)
    (hlen : ps.length ≤ 2)
    (hne : ∀ n ∈ ps.flatMap (fun e => [Name.appendNumber e.1 e.2, Name.appendNumber e.1 ((e.2 + 1) % 2 ^ 64)]),
      ∀ n' ∈ ps.flatMap (fun e => [Name.appendNumber e.1 e.2, Name.appendNumber e.1 ((e.2 + 1) % 2 ^ 64)]),
      murmurName 11#32 n = murmurName 11#32 n' → n = n') :
    Regular sampleCfg (fun n => (psat r n).1) (pswhat r) len := by
  unfold regularB at h
  simp only [Bool.and_eq_true, List.all_eq_true, List.mem_range, decide_eq_true_eq] at h
  obtain ⟨⟨⟨h1, h2⟩, h3⟩, h4⟩ := h
  refine ⟨?_, ?_, ?_, ?_, ?_⟩
  · intro k hk p hw
    have := h1 k hk
    simp only [hw, decide_eq_true_eq] at this
    rcases this with rfl | rfl <;> exact nameOf_valid (by decide)
  · intro e he
    have := h2 e he
    omega
  · intro a ha
    simp only [sampleCfg]
    omega
  · intro a b e e' h5 h6 _ h7
    simp only [sampleCfg, Nat.add_right_cancel_iff] at h7
    subst h7
    simpa [h5] using h6
  · refine noCollisionsIn_two (ps := ps) (fun p q hm => ?_) hlen hne _
    rw [← h4]
    exact hm

/-- The consumer subscribes to /a, fetches the hello reply and asks; the Interest is parked until /a is published,
and the reply arrives after /b was published, too. -/
def steadyScript : List Act :=
  [.prod (.addUserNode pA), .prod (.addUserNode pB), .cons (.call (.addSubscription pA 0 false)),
   .cons (.call .sendHello), .ask, .helloPkt, .helloDone [] [], .cons (.call .sendSync), .ask,
   .prod (.publishName pA none), .prod (.publishName pB none), .syncPkt, .syncDone [], .ask]

/-- The consumer adds /b while its Interest for /a is pending. -/
def lateScript : List Act :=
  [.prod (.addUserNode pA), .prod (.addUserNode pB), .cons (.call (.addSubscription pA 0 false)),
   .cons (.call .sendHello), .ask, .helloPkt, .helloDone [] [], .cons (.call .sendSync),
   .cons (.call (.addSubscription pB 0 false)), .prod (.publishName pB none), .ask,
   .prod (.publishName pA none), .syncPkt, .syncDone []]

set_option maxRecDepth 100000 in
/-- The hypotheses of C45 hold in a run with a delayed reply: at the end the consumer holds
the IBF of state 10, in which /a has number 1 and /b has number 0, and it knows /a's number. -/
theorem steady_run : ∃ (P : Nat → Part) (C : Nat → Cons) (what : Nat → PSEv),
    PSRun sampleCfg sampleCCfg P C what 14 ∧ Matching sampleCfg sampleCCfg ∧ Regular sampleCfg P what 14 ∧
      Careful sampleCfg P C what 14 ∧ HoldsIbf sampleCfg (C 14) (P 10) ∧ (P 10).base.getSeqNo pA = some 1 ∧
      (P 10).base.getSeqNo pB = some 0 ∧ (P 14).base.getSeqNo pB = some 1 ∧
      (C 14).isSubscribed pA = true ∧ (C 14).getSeqNo pA = some 1 := by
  have hx : ((psrun sampleCfg sampleCCfg steadyScript).map fun r =>
      carefulB r 14 && regularB r 14 [(pA, 1), (pB, 1)] &&
      decide ((((psat r 10).1.base.iblt.toComponent sampleCfg.ibltCodec).get?.map fun c => [c]) = some (psat r 14).2.iblt) &&
      decide ((psat r 10).1.base.getSeqNo pA = some 1) && decide ((psat r 10).1.base.getSeqNo pB = some 0) &&
      decide ((psat r 14).1.base.getSeqNo pB = some 1) && (psat r 14).2.isSubscribed pA &&
      decide ((psat r 14).2.getSeqNo pA = some 1)) = some true := by decide +kernel
  obtain ⟨r, hr, hb⟩ := Option.of_map hx
  simp only [Bool.and_eq_true, decide_eq_true_eq] at hb
  obtain ⟨⟨⟨⟨⟨⟨⟨h1, h2⟩, h3⟩, h4⟩, h5⟩, h6⟩, h7⟩, h8⟩ := hb
  obtain ⟨c, hc, hc'⟩ := Res.of_get? h3
  exact ⟨_, _, _, psrun_sound hr, sample_matching, regular_of h2 (by decide) (by decide +kernel), careful_of h1,
    ⟨c, hc, hc'.symm⟩, h4, h5, h6, h7, h8⟩

set_option maxRecDepth 100000 in
/-- C45 is false as stated: the consumer adds /b with number 0 while its sync Interest, whose Bloom filter does not
contain /b, is pending.  /b is published, then /a.  The reply only lists /a, but brings the IBF with both.  From then on
the consumer presents that IBF, so that it is not told of /b's number 1. -/
theorem c45_false : ¬ Spec.NeverMisses := by
  intro hall
  have hx : ((psrun sampleCfg sampleCCfg lateScript).map fun r =>
      regularB r 14 [(pB, 1), (pA, 1)] &&
      decide ((((psat r 14).1.base.iblt.toComponent sampleCfg.ibltCodec).get?.map fun c => [c]) = some (psat r 14).2.iblt) &&
      decide ((psat r 14).1.base.getSeqNo pB = some 1) && (psat r 14).2.isSubscribed pB &&
      decide ((psat r 14).2.getSeqNo pB = some 0)) = some true := by decide +kernel
  obtain ⟨r, hr, hb⟩ := Option.of_map hx
  simp only [Bool.and_eq_true, decide_eq_true_eq] at hb
  obtain ⟨⟨⟨⟨h1, h2⟩, h3⟩, h4⟩, h5⟩ := hb
  obtain ⟨c, hc, hc'⟩ := Res.of_get? h2
  obtain ⟨y, hy, hle⟩ := hall _ _ _ _ _ _ (psrun_sound hr) sample_matching (regular_of h1 (by decide) (by decide +kernel))
    14 (by decide) 14 (by decide) ⟨c, hc, hc'.symm⟩ pB 1 h4 h3
  have hy' : (psat r 14).2.getSeqNo pB = some y := hy
  rw [h5] at hy'
  cases hy'
  omega

/-- The consumer adds /b with number 0 after the hello reply told that its number is 1. -/
def staleScript : List Act :=
  [.prod (.addUserNode pA), .prod (.addUserNode pB), .prod (.publishName pB none), .cons (.call .sendHello), .ask,
   .helloPkt, .helloDone [] [], .cons (.call (.addSubscription pB 0 false)), .cons (.call .sendSync), .ask]

set_option maxRecDepth 100000 in
/-- Adding subscriptions in time is not enough: with a number below the one in the hello reply, the Interest with the
IBF of the hello reply is parked, and the consumer is not told of the number 1. -/
theorem c45_false_stale : ∃ (P : Nat → Part) (C : Nat → Cons) (what : Nat → PSEv),
    PSRun sampleCfg sampleCCfg P C what 10 ∧ Matching sampleCfg sampleCCfg ∧ Regular sampleCfg P what 10 ∧
      (∀ n < 10, ∀ op, what n = .cons op → AddsInTime (C n) op) ∧ HoldsIbf sampleCfg (C 10) (P 10) ∧
      ¬ UpToDate (C 10) (P 10) ∧ (P 10).pending ≠ [] := by
  have hx : ((psrun sampleCfg sampleCCfg staleScript).map fun r =>
      ((List.range 10).all fun n => match pswhat r n with
        | .cons op => decide (AddsInTime (psat r n).2 op)
        | _ => true) && regularB r 10 [(pB, 1)] &&
      decide ((((psat r 10).1.base.iblt.toComponent sampleCfg.ibltCodec).get?.map fun c => [c]) = some (psat r 10).2.iblt) &&
      decide ((psat r 10).1.base.getSeqNo pB = some 1) && (psat r 10).2.isSubscribed pB &&
      decide ((psat r 10).2.getSeqNo pB = some 0) && decide ((psat r 10).1.pending.length = 1)) = some true := by
    decide +kernel
  obtain ⟨r, hr, hb⟩ := Option.of_map hx
  simp only [Bool.and_eq_true, decide_eq_true_eq, List.all_eq_true, List.mem_range] at hb
  obtain ⟨⟨⟨⟨⟨⟨h1, h2⟩, h3⟩, h4⟩, h5⟩, h6⟩, h7⟩ := hb
  obtain ⟨c, hc, hc'⟩ := Res.of_get? h3
  refine ⟨_, _, _, psrun_sound hr, sample_matching, regular_of h2 (by decide) (by decide +kernel), ?_, ⟨c, hc, hc'.symm⟩, ?_, ?_⟩
  · intro n hn op hw
    have := h1 n hn
    rw [hw] at this
    simpa using this
  · intro hu
    obtain ⟨y, hy, hle⟩ := hu pB 1 h5 h4
    rw [h6] at hy
    cases hy
    omega
  · intro h0
    rw [h0] at h7
    cases h7

end PSync
