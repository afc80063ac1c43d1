import Verif.Spec.ExampleRun
import Verif.Proofs.Told
import Verif.Props.ExamplesPrint
import Verif.Props.PubSubLive
/-!
The example consumer in a run with a producer.
-/
namespace PSync
open Spec

namespace Cons

/-- 1 for a running fetcher. -/
def busyOf (f : Option Bool) : Nat := if f = some true then 1 else 0

/-- At most one thing is going on: a fetch or a timer.  Between the packet of an application nack and the completion of
that fetch: the hello fetch, too. -/
def Chain (s : Cons) : Prop :=
  (busyOf s.syncFetcher + busyOf s.helloFetcher + s.timers.length ≤ 1 ∧ s.contentType ≠ .nack) ∨
  (s.syncFetcher = some true ∧ s.helloFetcher = some true ∧ s.timers = [] ∧ s.contentType = .nack)

theorem busyOf_true : busyOf (some true) = 1 := rfl
theorem busyOf_false : busyOf (some false) = 0 := rfl
theorem busyOf_le (f : Option Bool) : busyOf f ≤ 1 := by unfold busyOf; split <;> omega
theorem busyOf_eq_zero {f : Option Bool} (h : busyOf f = 0) : f ≠ some true := by
  intro e; rw [e, busyOf_true] at h; omega

/-- Calls that subscribe or send a sync Interest leave the rest alone. -/
theorem quietCalls_keep {cc : CCfg} {cs : List Call} (hc : ∀ c ∈ cs, c = .sendSync ∨ ∃ n q, c = .addSubscription n q true) {s s' : Cons}
    (h : foldRes (Cons.call cc) s cs = .ok s') :
    s'.timers = s.timers ∧ s'.helloFetcher = s.helloFetcher ∧ s'.contentType = s.contentType ∧ s'.now = s.now ∧ s'.draws = s.draws := by
  refine foldRes_inv (P := fun x : Cons => x.timers = s.timers ∧ x.helloFetcher = s.helloFetcher ∧ x.contentType = s.contentType ∧
    x.now = s.now ∧ x.draws = s.draws) cs (fun a c b hm hi h1 => ?_) ⟨rfl, rfl, rfl, rfl, rfl⟩ h
  rcases hc c hm with rfl | ⟨n, q, rfl⟩
  · obtain ⟨_, _, _, rfl⟩ := sendSyncInterest_ok (show a.sendSyncInterest cc = .ok b from h1)
    exact hi
  · simp only [call, Res.bind_eq_ok, Res.ok.injEq] at h1
    obtain ⟨⟨r, s1⟩, h1, rfl⟩ := h1
    unfold addSubscription at h1
    split at h1
    · cases h1; exact hi
    · simp only [Res.bind_eq_ok, Res.ok.injEq, Prod.mk.injEq] at h1
      obtain ⟨bf, _, _, rfl⟩ := h1
      split <;> exact hi

theorem takeDue_length {now : Nat} : ∀ {l ts : List (Nat × CTimer)} {k : CTimer}, takeDue now l = some (k, ts) → l.length = ts.length + 1
  | [], _, _, h => by simp [takeDue] at h
  | (d, k') :: l, ts, k, h => by
    unfold takeDue at h
    split at h
    · cases h; rfl
    · split at h
      · cases h
      · rename_i k2 ts2 h2
        cases h
        simp [takeDue_length h2]

end Cons

namespace ConsApp
open Cons

variable {cfg : ConsAppCfg}

/-- The next event keeps the chain. -/
theorem chain_step {a a' : ConsApp} {op : Op} {o : Cons.Op} (hc : Chain a.cons)
    (hstart : op = .start → a.cons.syncFetcher ≠ some true ∧ a.cons.helloFetcher ≠ some true ∧ a.cons.timers = [] ∧ a.cons.contentType ≠ .nack)
    (hnack : a.cons.contentType = .nack → ∃ buf acts, o = .syncComplete buf acts)
    (ho : consOp cfg a op = .ok o) (h : Cons.step cfg.consumer a.cons o = .ok a'.cons) :
    Chain a'.cons ∧ (a'.cons.contentType = .nack → a.cons.contentType ≠ .nack ∧ a.cons.syncFetcher = some true ∧
      ∃ d, o = .syncSegment d ∧ d.contentType = .nack ∧ d.finalBlock.isSome) := by
  generalize a'.cons = s' at h ⊢
  have inert : Chain a.cons → a.cons.contentType ≠ .nack → s' = a.cons → Chain s' ∧ (s'.contentType = .nack →
      a.cons.contentType ≠ .nack ∧ a.cons.syncFetcher = some true ∧ ∃ d, o = .syncSegment d ∧ d.contentType = .nack ∧ d.finalBlock.isSome) :=
    fun h1 h2 e => by rw [e]; exact ⟨h1, fun h3 => absurd h3 h2⟩
  have normal : o ≠ o ∨ (∀ buf acts, o ≠ .syncComplete buf acts) → a.cons.contentType ≠ .nack ∧
      busyOf a.cons.syncFetcher + busyOf a.cons.helloFetcher + a.cons.timers.length ≤ 1 := by
    rintro (h1 | h1)
    · exact absurd rfl h1
    · rcases hc with ⟨h2, h3⟩ | ⟨_, _, _, h3⟩
      · exact ⟨h3, h2⟩
      · obtain ⟨buf, acts, e⟩ := hnack h3
        exact absurd e (h1 buf acts)
  cases op with
  | start =>
    cases ho
    obtain ⟨h1, h2, h3, h4⟩ := hstart rfl
    simp only [Cons.step, Cons.call, Res.ok.injEq] at h
    subst h
    refine ⟨.inl ⟨?_, h4⟩, fun h5 => absurd h5 h4⟩
    simp only [sendHelloInterest, busyOf_true, h3, List.length_nil]
    rw [show busyOf a.cons.syncFetcher = 0 by unfold busyOf; rw [if_neg h1]]
  | helloSegment d =>
    cases ho
    obtain ⟨n1, n2⟩ := normal (.inr (by simp))
    simp only [Cons.step] at h
    split at h
    · cases h
      split
      · exact ⟨.inl ⟨n2, n1⟩, fun h5 => absurd h5 n1⟩
      · exact ⟨hc, fun h5 => absurd h5 n1⟩
    · cases h; exact inert hc n1 rfl
  | helloComplete buf =>
    obtain ⟨_, c2⟩ := consOp_calls ho
    simp only [consOp] at ho
    split at ho
    · rename_i hf
      simp only [Res.bind_eq_ok, Res.ok.injEq] at ho
      obtain ⟨avail, _, acts, h2, rfl⟩ := ho
      obtain ⟨n1, n2⟩ := normal (.inr (by simp))
      rw [hf, busyOf_true] at n2
      simp only [Cons.step, hf, if_true] at h
      unfold onHelloData at h
      simp only [Res.bind_eq_ok] at h
      obtain ⟨st, _, r, _, s1, k1, k2⟩ := h
      obtain ⟨e1, e2, e3, _⟩ := quietCalls_keep (helloCalls_form h2) k1
      have hs : s'.timers = [] ∧ s'.helloFetcher = some false ∧ s'.contentType = a.cons.contentType := by
        have ht : a.cons.timers = [] := by
          have : a.cons.timers.length = 0 := by omega
          exact List.length_eq_zero_iff.mp this
        split at k2
        · cases k2; exact ⟨e1.trans ht, e2, e3⟩
        · simp only [foldRes, Res.ok.injEq] at k2
          subst k2
          exact ⟨e1.trans ht, e2, e3⟩
      refine ⟨.inl ⟨?_, by rw [hs.2.2]; exact n1⟩, fun h5 => absurd (hs.2.2 ▸ h5) n1⟩
      rw [hs.1, hs.2.1, busyOf_false]
      have := busyOf_le s'.syncFetcher
      simpa using this
    · rename_i hf
      cases ho
      obtain ⟨n1, n2⟩ := normal (.inr (by simp))
      simp only [Cons.step, hf, if_false] at h
      cases h; exact inert hc n1 rfl
  | helloError =>
    cases ho
    obtain ⟨n1, n2⟩ := normal (.inr (by simp))
    simp only [Cons.step] at h
    split at h
    · rename_i hf
      cases h
      refine ⟨.inl ⟨?_, n1⟩, fun h5 => absurd h5 n1⟩
      rw [hf, busyOf_true] at n2
      simp only [busyOf_false, List.length_append, List.length_singleton]
      omega
    · cases h; exact inert hc n1 rfl
  | syncSegment d =>
    cases ho
    obtain ⟨n1, n2⟩ := normal (.inr (by simp))
    simp only [Cons.step] at h
    split at h
    · rename_i hf
      rw [hf, busyOf_true] at n2
      have hh : a.cons.timers = [] := List.length_eq_zero_iff.mp (by omega)
      simp only [Res.ok.injEq] at h
      by_cases hfb : d.finalBlock.isSome
      · simp only [hfb, if_true] at h
        split at h
        · rename_i hk
          subst h
          refine ⟨.inr ⟨hf, rfl, hh, hk⟩, fun _ => ⟨n1, hf, d, rfl, hk, hfb⟩⟩
        · rename_i hk
          subst h
          refine ⟨.inl ⟨?_, hk⟩, fun h5 => absurd h5 hk⟩
          simp only [hf, busyOf_true]
          omega
      · simp only [hfb] at h
        simp only [Bool.false_eq_true, if_false, n1] at h
        exact inert hc n1 h.symm
    · cases h; exact inert hc n1 rfl
  | syncComplete buf =>
    cases ho
    simp only [Cons.step] at h
    split at h
    · rename_i hf
      split at h
      · rename_i hk
        cases h
        rcases hc with ⟨_, h3⟩ | ⟨_, c2, c3, _⟩
        · exact absurd hk h3
        · refine ⟨.inl ⟨?_, by simp⟩, fun h5 => by simp at h5⟩
          simp only [c2, c3, busyOf_false, busyOf_true, List.length_nil]
          omega
      · rename_i hk
        rcases hc with ⟨n2, _⟩ | ⟨_, _, _, c4⟩
        · rw [hf, busyOf_true] at n2
          unfold onSyncData at h
          simp only [Res.bind_eq_ok] at h
          obtain ⟨st, _, r, _, s1, k1, k2⟩ := h
          have hs1 : s1.timers = a.cons.timers ∧ s1.helloFetcher = a.cons.helloFetcher ∧ s1.contentType = a.cons.contentType := by
            split at k1
            · cases k1; exact ⟨rfl, rfl, rfl⟩
            · simp only [foldRes, Res.ok.injEq] at k1
              subst k1
              exact ⟨rfl, rfl, rfl⟩
          obtain ⟨_, cs, _, rfl⟩ := sendSyncInterest_ok k2
          refine ⟨.inl ⟨?_, ?_⟩, fun h5 => ?_⟩
          · simp only [hs1.1, hs1.2.1, busyOf_true]
            omega
          · simp only [hs1.2.2]; exact hk
          · simp only [hs1.2.2] at h5; exact absurd h5 hk
        · exact absurd c4 hk
    · rename_i hf
      cases h
      refine ⟨hc, fun h5 => ?_⟩
      rcases hc with ⟨_, h3⟩ | ⟨c1, _, _, _⟩
      · exact absurd h5 h3
      · exact absurd c1 hf
  | syncError t =>
    cases ho
    obtain ⟨n1, n2⟩ := normal (.inr (by simp))
    simp only [Cons.step] at h
    split at h
    · rename_i hf
      rw [hf, busyOf_true] at n2
      split at h
      · obtain ⟨_, cs, _, rfl⟩ := sendSyncInterest_ok h
        refine ⟨.inl ⟨?_, n1⟩, fun h5 => absurd h5 n1⟩
        simp only [busyOf_true]
        omega
      · cases h
        refine ⟨.inl ⟨?_, n1⟩, fun h5 => absurd h5 n1⟩
        simp only [busyOf_false, List.length_append, List.length_singleton]
        omega
    · cases h; exact inert hc n1 rfl
  | tick t =>
    cases ho
    obtain ⟨n1, n2⟩ := normal (.inr (by simp))
    simp only [Cons.step, Res.ok.injEq] at h
    subst h
    split
    · exact ⟨.inl ⟨n2, n1⟩, fun h5 => absurd h5 n1⟩
    · exact ⟨hc, fun h5 => absurd h5 n1⟩
  | fire =>
    cases ho
    obtain ⟨n1, n2⟩ := normal (.inr (by simp))
    simp only [Cons.step] at h
    split at h
    · cases h; exact inert hc n1 rfl
    · rename_i ts ht
      have := takeDue_length ht
      cases h
      refine ⟨.inl ⟨?_, n1⟩, fun h5 => absurd h5 n1⟩
      simp only [sendHelloInterest, busyOf_true]
      have := busyOf_le a.cons.syncFetcher
      omega
    · rename_i ts ht
      have := takeDue_length ht
      obtain ⟨_, cs, _, rfl⟩ := sendSyncInterest_ok h
      refine ⟨.inl ⟨?_, n1⟩, fun h5 => absurd h5 n1⟩
      simp only [busyOf_true]
      omega

end ConsApp

namespace Spec.ExRun

variable {pc : Cfg} {cfg : ConsAppCfg} {P : Nat → Part} {A : Nat → ConsApp} {what : Nat → PSEv} {len : Nat}

theorem psrun (h : ExRun pc cfg P A what len) : PSRun pc cfg.consumer P (fun n => (A n).cons) what len := by
  refine ⟨h.initP, ?_, fun n hn => ?_⟩
  · have := h.initA
    unfold ConsApp.init at this
    simp only [Res.bind_eq_ok, Res.ok.injEq] at this
    obtain ⟨c, h1, h2⟩ := this
    rw [← h2]
    exact h1
  · cases h.step n hn with
    | prod op hw hs hc => exact .prod op hw hs (by simp only [hc])
    | app op o hst ho hw hs hp h1 h2 =>
      obtain ⟨o', _, h3, h4, _⟩ := ConsApp.step_inv hs
      rw [ho, Res.ok.injEq] at h3
      subst h3
      exact .cons o hw h4 hp h1 h2

/-- Before the first event at the consumer its state is the initial one. -/
theorem untouched (h : ExRun pc cfg P A what len) : ∀ {n}, n ≤ len → (∀ k < n, ∃ o, what k = .prod o) → A n = A 0 := by
  intro n
  induction n with
  | zero => exact fun _ _ => rfl
  | succ n ih =>
    intro hn hall
    cases h.step n (by omega) with
    | prod op hw hs hc => rw [hc]; exact ih (by omega) (fun k hk => hall k (by omega))
    | app op o hst ho hw hs hp h1 h2 =>
      obtain ⟨o', ho'⟩ := hall n (by omega)
      rw [hw] at ho'; cases ho'

theorem chain (h : ExRun pc cfg P A what len) (ha : NackAtOnce A what len) : ∀ {n}, n ≤ len → Cons.Chain (A n).cons ∧
    ((A n).cons.contentType = .nack → n < len → ∃ buf acts, what n = .cons (.syncComplete buf acts)) := by
  have init : (A 0).cons.syncFetcher ≠ some true ∧ (A 0).cons.helloFetcher ≠ some true ∧ (A 0).cons.timers = [] ∧
      (A 0).cons.contentType ≠ .nack := by
    have hi := h.psrun.initC
    unfold Cons.init at hi
    simp only [Res.bind_eq_ok, Res.ok.injEq] at hi
    obtain ⟨bf, _, e⟩ := hi
    rw [← e]
    simp
  intro n
  induction n with
  | zero =>
    intro _
    obtain ⟨i1, i2, i3, i4⟩ := init
    refine ⟨.inl ⟨?_, i4⟩, fun h5 => absurd h5 i4⟩
    rw [i3]
    simp [Cons.busyOf, i1, i2]
  | succ n ih =>
    intro hn
    obtain ⟨ih1, ih2⟩ := ih (by omega)
    cases h.step n (by omega) with
    | prod op hw hs hc =>
      rw [hc]
      refine ⟨ih1, fun hk _ => ?_⟩
      obtain ⟨buf, acts, e⟩ := ih2 hk (by omega)
      rw [hw] at e; cases e
    | app op o hst ho hw hs hp h1 h2 =>
      obtain ⟨o', _, h3, h4, _⟩ := ConsApp.step_inv hs
      rw [ho, Res.ok.injEq] at h3
      subst h3
      obtain ⟨k1, k2⟩ := ConsApp.chain_step ih1 (fun e => by
        rw [h.untouched (by omega) (hst.mp e)]; exact init) (fun hk => by
        obtain ⟨buf, acts, e⟩ := ih2 hk (by omega)
        rw [hw] at e
        simp only [PSEv.cons.injEq] at e
        exact ⟨buf, acts, e⟩) ho h4
      refine ⟨k1, fun hk hlt => ?_⟩
      obtain ⟨_, k4, d, rfl, k5, k6⟩ := k2 hk
      exact ha n hlt d hw k4 k5 k6

end Spec.ExRun

theorem noneAdded_of {b : Bool} {cs : List Cons.Call} (h : ∀ c ∈ cs, c = .sendHello ∨ c = .sendSync) : NoneAdded b cs := by
  induction cs generalizing b with
  | nil => trivial
  | cons c cs ih =>
    rcases h c (by simp) with rfl | rfl
    · exact ih (fun c hc => h c (by simp [hc]))
    · exact ih (fun c hc => h c (by simp [hc]))

theorem noneAdded_adds {r : List Cons.Call} (h : ∀ c ∈ r, ∃ p q, c = Cons.Call.addSubscription p q true) :
    NoneAdded false (r ++ [.sendSync]) := by
  induction r with
  | nil => trivial
  | cons c r ih =>
    obtain ⟨p, q, rfl⟩ := h c (by simp)
    exact ⟨rfl, ih (fun c hc => h c (by simp [hc]))⟩

namespace ConsApp

/-- The calls of the hello callback: subscriptions with the numbers offered, then sendSyncInterest. -/
theorem helloCalls_shape {cfg : ConsAppCfg} {k : Nat} {avail : NMap Nat} {acts : List Cons.Call} (h : helloCalls cfg k avail = .ok acts) :
    ∃ r, acts = r ++ [.sendSync] ∧ ∀ c ∈ r, ∃ p q, c = Cons.Call.addSubscription p q true ∧ avail.find p = some q := by
  unfold helloCalls at h
  rw [Res.bind_eq_ok] at h
  obtain ⟨r, h1, h2⟩ := h
  cases h2
  refine ⟨r, rfl, ?_⟩
  generalize List.range cfg.nSub.toNat = is at h1
  induction is generalizing r with
  | nil => cases h1; simp
  | cons i is ih =>
    unfold picks at h1
    split at h1
    · cases h1
    · split at h1
      · cases h1
      · rename_i hq
        rw [Res.bind_eq_ok] at h1
        obtain ⟨r', h3, h4⟩ := h1
        cases h4
        intro c hc
        rcases List.mem_cons.mp hc with rfl | hc
        · exact ⟨_, _, rfl, hq⟩
        · exact ih r' h3 c hc

/-- The event that subscribes. -/
theorem consOp_adds {cfg : ConsAppCfg} {a : ConsApp} {op : Op} {o : Cons.Op} (h : consOp cfg a op = .ok o) :
    (∀ c ∈ callsIn o, c = .sendHello ∨ c = .sendSync) ∨
      ∃ buf r avail, a.cons.helloFetcher = some true ∧ o = .helloComplete buf (r ++ [.sendSync]) [] ∧
        helloAvail a.cons buf = .ok avail ∧ ∀ c ∈ r, ∃ p q, c = Cons.Call.addSubscription p q true ∧ avail.find p = some q := by
  rcases (consOp_calls h).2 with h1 | ⟨buf, acts, hf, rfl, rfl, _⟩
  · exact .inl h1
  · simp only [consOp, hf, if_true, Res.bind_eq_ok, Res.ok.injEq, Cons.Op.helloComplete.injEq] at h
    obtain ⟨avail, h1, acts', h2, _, rfl, _⟩ := h
    obtain ⟨r, rfl, hr⟩ := helloCalls_shape h2
    exact .inr ⟨buf, r, avail, hf, rfl, h1, hr⟩

/-- An event that knows the prefix already prints the numbers that are new, in order. -/
theorem prints_new {cfg : ConsAppCfg} {a a' : ConsApp} {op : Op} {p : Name} (hr : Cons.Reach cfg.consumer a.cons) {x : Nat}
    (hx : a.cons.getSeqNo p = some x) (h : step cfg a op = .ok a') :
    ∃ y, x ≤ y ∧ a'.cons.getSeqNo p = some y ∧ printedFor p a'.printed = printedFor p a.printed ++ upTo (x + 1) y := by
  obtain ⟨o, out, h1, h2, h3, h4, _⟩ := step_inv h
  obtain ⟨c1, c2⟩ := consOp_calls h1
  have hrun : Cons.run cfg.consumer a.cons [o] = .ok a'.cons := by
    unfold Cons.run
    simp only [foldRes, h2, Res.ok_bind]
  obtain ⟨ext, y, e1, e2, e3, e4, _⟩ := c46_ranges cfg.consumer a.cons a'.cons hr p x hx [o] (by
    intro op hop hc
    rw [List.mem_singleton] at hop
    subst hop
    rcases c1 _ hc with h | h | ⟨_, _, h⟩ <;> cases h) hrun
  refine ⟨y, e3, e2, ?_⟩
  rw [h4, printedFor_append, (printUpdates_inv h3).1, e1, List.drop_left, notified_numbers, tiles_numbers e4]

end ConsApp

namespace Spec.ExRun

variable {pc : Cfg} {cfg : ConsAppCfg} {P : Nat → Part} {A : Nat → ConsApp} {what : Nat → PSEv} {len : Nat}

/-- What the hello callback offers is what the producer had at the time of the IBF. -/
theorem offered (h : ExRun pc cfg P A what len) (hm : Matching pc cfg.consumer) (hr : Regular pc P what len) {n : Nat} (hn : n ≤ len)
    {buf : Bytes} (hact : (A n).cons.helloFetcher = some true)
    (hd : FetchDone (fun d => Out.data d ∈ (P n).log) (fun k => (A k).cons) what (cfg.consumer.syncPrefix ++ [HELLO]) .helloSegment n buf)
    {avail : NMap Nat} (hav : ConsApp.helloAvail (A n).cons buf = .ok avail) :
    ∃ b c, PSRun.Tables P n b ∧ b.iblt.toComponent pc.ibltCodec = .ok c ∧ (A n).cons.helloDataName = pc.syncPrefix ++ [HELLO, c] ∧
      ∀ p q, avail.find p = some q → b.getSeqNo p = some q := by
  have hv := h.psrun.upto hn
  have hrn := h.psrun.regular_upto hr hn
  obtain ⟨b, c, hb, hcomp, hnm, rfl, hl, _⟩ := hv.hello_delivered hm hrn (le_refl _) hact hd
  refine ⟨b, c, hb, hcomp, hnm, ?_⟩
  unfold ConsApp.helloAvail at hav
  simp only [Res.bind_eq_ok, Res.ok.injEq] at hav
  obtain ⟨st, hst, r, hf, rfl⟩ := hav
  obtain ⟨_, _, hinv⟩ := (hv.momentC (le_refl _)).inv
  have hspec := fun m => helloContent_spec ((hv.comparable hrn).inv b hb) m
  rw [hv.decoded hrn hb (fun m hm => (hspec m).mp hm) hl hst] at hf
  refine (Cons.told_hello (T := fun p q => b.getSeqNo p = some q) (A := fun _ _ => True) (fun m hm' p q ha => ?_) hinv.sub
    (fun _ _ _ => .inr trivial) hf).2.2
  obtain ⟨p', x, h1, rfl⟩ := (hspec m).mp hm'
  rw [announced_appendNumber p' x (((hv.comparable hrn).inv b hb).lt p' x h1)] at ha
  cases ha
  exact h1

/-- The example consumer is careful. -/
theorem careful (h : ExRun pc cfg P A what len) (hm : Matching pc cfg.consumer) (hr : Regular pc P what len)
    (ha : NackAtOnce A what len) : Careful pc P (fun n => (A n).cons) what len := by
  refine ⟨fun n hn o hw => ?_, fun n hn o p q cb hw hmem r hle hib x hx => ?_⟩
  · cases h.step n hn with
    | prod op hw' _ _ => rw [hw] at hw'; cases hw'
    | app op o' hst ho hw' hs hp h1 h2 =>
      rw [hw] at hw'
      cases hw'
      rcases ConsApp.consOp_adds ho with h3 | ⟨buf, r, avail, hf, rfl, _, hr'⟩
      · cases o <;> first | trivial | exact noneAdded_of h3
      · have hsy : (A n).cons.syncFetcher ≠ some true := by
          obtain ⟨hc, hk⟩ := h.chain ha (n := n) (by omega)
          rcases hc with ⟨c1, _⟩ | ⟨_, _, _, c4⟩
          · rw [hf, Cons.busyOf_true] at c1
            exact Cons.busyOf_eq_zero (by omega)
          · obtain ⟨buf', acts, e⟩ := hk c4 hn
            rw [hw] at e; cases e
        simp only [AddsInTime, hsy, decide_false, List.append_nil]
        exact noneAdded_adds (fun c hc => by obtain ⟨p, q, e, _⟩ := hr' c hc; exact ⟨p, q, e⟩)
  · cases h.step n hn with
    | prod op hw' _ _ => rw [hw] at hw'; cases hw'
    | app op o' hst ho hw' hs hp h1 h2 =>
      rw [hw] at hw'
      cases hw'
      rcases ConsApp.consOp_adds ho with h3 | ⟨buf, l, avail, hf, rfl, hav, hl⟩
      · rcases h3 _ hmem with e | e <;> cases e
      · obtain ⟨b, c, hb, hcomp, hnm, hfind⟩ := h.offered hm hr (by omega) hf (h2 _ _ _ rfl) hav
        simp only [callsIn, List.append_nil, List.mem_append, List.mem_singleton] at hmem
        rcases hmem with hmem | hmem
        swap
        · cases hmem
        obtain ⟨p', q', e, hq⟩ := hl _ hmem
        cases e
        have hbq := hfind p q hq
        obtain ⟨c', hcomp', hib'⟩ := hib
        obtain ⟨o', _, h5, h6, _⟩ := ConsApp.step_inv hs
        rw [ho, Res.ok.injEq] at h5
        subst h5
        simp only [Cons.step, hf, if_true] at h6
        obtain ⟨_, _, _, _, hwent⟩ := Cons.onHelloData_went h6
        have e1 : (A (n + 1)).cons.iblt = [c] := by rw [hwent.iblt]; simp [hnm]
        rw [e1] at hib'
        simp only [List.cons.injEq, and_true] at hib'
        subst hib'
        have hb' : PSRun.Tables P len b := by obtain ⟨r, h7, h8⟩ := hb; exact ⟨r, by omega, h8⟩
        have hG := h.psrun.sendable hm
        have ht : (P r).base.iblt = b.iblt := by
          have h7 := hG _ ⟨r, hle, rfl⟩ c hcomp'
          rw [hG b hb' c hcomp, Res.ok.injEq] at h7
          exact h7.symm
        have hcmp := h.psrun.comparable hr
        have hlt := (hcmp.inv b hb').lt p q hbq
        by_cases hx0 : x = 0
        · omega
        · obtain ⟨p', x', h7, h8, h9⟩ := hcmp.same hm.expected ⟨r, hle, rfl⟩ hb' ht ⟨p, x, hx, hx0, rfl⟩
          obtain ⟨rfl, rfl⟩ := appendNumber_inj' ((hcmp.inv _ ⟨r, hle, rfl⟩).lt p x hx) ((hcmp.inv b hb').lt p' x' h7) h9
          rw [hbq, Option.some.injEq] at h7
          subst h7
          rw [Nat.mod_eq_of_lt (show q < 2 ^ 64 from hlt)]

/-- What the application gives when it subscribes are numbers of the producer. -/
theorem given (h : ExRun pc cfg P A what len) (hm : Matching pc cfg.consumer) (hr : Regular pc P what len) {n : Nat} (hn : n ≤ len)
    {p : Name} {q : Nat} (hg : Given what n p q) : Was P n p q := by
  obtain ⟨k, hk, o, x, cb, hw, hmem, rfl⟩ := hg
  cases h.step k (by omega) with
  | prod op hw' _ _ => rw [hw] at hw'; cases hw'
  | app op o' hst ho hw' hs hp h1 h2 =>
    rw [hw] at hw'
    cases hw'
    rcases ConsApp.consOp_adds ho with h3 | ⟨buf, l, avail, hf, rfl, hav, hl⟩
    · rcases h3 _ hmem with e | e <;> cases e
    · obtain ⟨b, c, hb, _, _, hfind⟩ := h.offered hm hr (n := k) (by omega) hf (h2 _ _ _ rfl) hav
      simp only [callsIn, List.append_nil, List.mem_append, List.mem_singleton] at hmem
      rcases hmem with hmem | hmem
      swap
      · cases hmem
      obtain ⟨p', q', e, hq⟩ := hl _ hmem
      cases e
      have hbq := hfind p x hq
      have hlt := ((h.psrun.comparable hr).inv b (by obtain ⟨r, h7, h8⟩ := hb; exact ⟨r, by omega, h8⟩)).lt p x hbq
      obtain ⟨r, h7, rfl⟩ := hb
      exact ⟨r, by omega, by rw [Nat.mod_eq_of_lt (show x < 2 ^ 64 from hlt)]; exact hbq⟩

/-- The consumer of the application is in a reachable state, and the application, once started, too. -/
theorem reach (h : ExRun pc cfg P A what len) : ∀ {n}, n ≤ len → Cons.Reach cfg.consumer (A n).cons := by
  intro n
  induction n with
  | zero => exact fun _ => ⟨_, [], h.psrun.initC, rfl⟩
  | succ n ih =>
    intro hn
    obtain ⟨s0, ops, h1, h2⟩ := ih (by omega)
    cases h.psrun.step n (by omega) with
    | prod op _ _ hs => rw [hs]; exact ⟨s0, ops, h1, h2⟩
    | cons op _ hs _ _ _ =>
      refine ⟨s0, ops ++ [op], h1, ?_⟩
      unfold Cons.run at h2 ⊢
      rw [foldRes_append, h2, Res.ok_bind]
      simp only [foldRes]
      rw [hs]
      rfl

/-- From any moment on, the application prints exactly the numbers that are new, in order. -/
theorem prints (h : ExRun pc cfg P A what len) {m n : Nat} (hmn : m ≤ n) (hn : n ≤ len) {p : Name} {x : Nat}
    (hx : (A m).cons.getSeqNo p = some x) : ∃ y, x ≤ y ∧ (A n).cons.getSeqNo p = some y ∧
      printedFor p (A n).printed = printedFor p (A m).printed ++ upTo (x + 1) y := by
  induction n, hmn using Nat.le_induction with
  | base => exact ⟨x, le_refl _, hx, by simp [upTo]⟩
  | succ n hmn ih =>
    obtain ⟨y, h1, h2, h3⟩ := ih (by omega)
    cases h.step n (by omega) with
    | prod op hw hs hc => rw [hc]; exact ⟨y, h1, h2, h3⟩
    | app op o hst ho hw hs hp _ _ =>
      obtain ⟨z, h4, h5, h6⟩ := ConsApp.prints_new (h.reach (n := n) (by omega)) h2 hs
      refine ⟨z, by omega, h5, ?_⟩
      rw [h6, h3, List.append_assoc]
      congr 1
      unfold upTo
      rw [show z + 1 - (x + 1) = (y + 1 - (x + 1)) + (z + 1 - (y + 1)) by omega, ← List.range'_append_1,
        show x + 1 + (y + 1 - (x + 1)) = y + 1 by omega]

theorem printed (h : ExRun pc cfg P A what len) (p : Name) : ∀ {n}, n ≤ len → ConsApp.Printed p (A n).cons (A n).printed := by
  intro n
  induction n with
  | zero =>
    intro _
    have := h.initA
    unfold ConsApp.init at this
    simp only [Res.bind_eq_ok, Res.ok.injEq] at this
    obtain ⟨c, h1, h2⟩ := this
    rw [← h2]
    refine ⟨fun _ => rfl, fun x hx => ?_⟩
    unfold Cons.init at h1
    simp only [Res.bind_eq_ok, Res.ok.injEq] at h1
    obtain ⟨bf, _, rfl⟩ := h1
    simp [Cons.getSeqNo] at hx
  | succ n ih =>
    intro hn
    cases h.step n (by omega) with
    | prod op hw hs hc => rw [hc]; exact ih (by omega)
    | app op o hst ho hw hs hp _ _ => exact (ih (by omega)).step (h.reach (n := n) (by omega)) hs

end Spec.ExRun
end PSync
