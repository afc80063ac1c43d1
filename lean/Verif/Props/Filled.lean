import Verif.Props.Seldom
/-!
C125: the ranges that are given to the update callbacks are not empty.
-/
namespace PSync
open Spec

/-- No entry of an update has an empty range. -/
def Spec.RangesFilled (log : List Out) : Prop :=
  ∀ us, Out.update us ∈ log → ∀ u ∈ us, 1 ≤ u.lowSeq ∧ u.lowSeq ≤ u.highSeq

/-- The claim for groups. -/
def Spec.GroupRangesFilled : Prop :=
  ∀ (k : Nat) (cfg : Fin k → Cfg) (g : Nat → Fin k → Full) (who : Nat → Fin k) (what : Nat → Full.Op) (len : Nat),
    IsGroup cfg → GRun cfg g who what len → Sane cfg (g len) → ∀ i, RangesFilled (g len i).log

/-- The claim for consumers. -/
def Spec.ConsumerRangesFilled : Prop :=
  ∀ (pc : Cfg) (cc : CCfg) (P : Nat → Part) (C : Nat → Cons) (what : Nat → PSEv) (len : Nat),
    PSRun pc cc P C what len → Matching pc cc → Regular pc P what len → RangesFilled (C len).log

/-- No entry with a highest number other than 0 has an empty range. -/
def Spec.RangesFilledBut0 (log : List Out) : Prop :=
  ∀ us, Out.update us ∈ log → ∀ u ∈ us, u.highSeq ≠ 0 → 1 ≤ u.lowSeq ∧ u.lowSeq ≤ u.highSeq

theorem MergeRel.filled {b b' : Base} {us : List MissingDataInfo} (h : MergeRel b us b') :
    ∀ u ∈ us, u.highSeq ≠ 0 → 1 ≤ u.lowSeq ∧ u.lowSeq ≤ u.highSeq := by
  induction h with
  | nil b => exact fun u hu => (by cases hu)
  | newer p q face hq hnew h1 _ ih =>
    rename_i b b1 b2 us _
    intro u hu h0
    rcases List.mem_cons.mp hu with rfl | hu
    · unfold Full.isNewer at hnew
      simp only at h0 ⊢
      have hU : U64 = 2 ^ 64 := rfl
      split at hnew
      · rename_i hf
        rw [hf]
        simp only [Option.getD_none]
        rw [Nat.mod_eq_of_lt (by omega)]
        omega
      · rename_i c hf
        rw [hf]
        have := of_decide_eq_true hnew
        simp only [Option.getD_some]
        rw [Nat.mod_eq_of_lt (by omega)]
        omega
    · exact ih u hu h0

theorem Micro.filled {ρ : Rules} {v v' : View} (h : Micro ρ v v') (ht : RangesFilledBut0 v.log) : RangesFilledBut0 v'.log := by
  have quiet : ∀ l : List Out, (∀ us, Out.update us ∉ l) → v'.log = v.log ++ l → RangesFilledBut0 v'.log := by
    intro l hl e us hu
    rw [e] at hu
    rcases List.mem_append.mp hu with hu | hu
    · exact ht us hu
    · exact absurd hu (hl us)
  cases h with
  | merge us b' hm hne hmr =>
    intro us' hu
    rcases List.mem_append.mp hu with hu | hu
    · exact ht us' hu
    · cases List.mem_singleton.mp hu
      exact hmr.filled
  | interest n lt _ => exact quiet _ (by simp) rfl
  | stored n d _ => exact quiet _ (by simp) rfl
  | nack d _ => exact quiet _ (by simp) rfl
  | data now iname dname buf fr r _ _ _ => exact quiet _ (by simp) rfl
  | _ => exact quiet [] (by simp) (by simp)

theorem Micros.filled {ρ : Rules} {v v' : View} (h : Micros ρ v v') (ht : RangesFilledBut0 v.log) : RangesFilledBut0 v'.log := by
  induction h with
  | refl => exact ht
  | tail _ h ih => exact h.filled ih

/-- C125 for one full-sync node, whatever it receives: only a range whose highest number is 0 can be empty. -/
theorem c125_node_partial (cfg : Cfg) (s0 s : Full) (ops : List Full.Op) (h0 : Full.init cfg = .ok s0) (h : Full.run cfg s0 ops = .ok s) :
    RangesFilledBut0 s.log :=
  (Full.run_micro (Full.reach_inv ⟨s0, [], h0, rfl⟩) h).filled ((Full.init_micro h0 ops).filled (by intro us hu; cases hu))

section
variable {ι : Type} {cfg : ι → Cfg} {g : Nat → ι → Full} {who : Nat → ι} {what : Nat → Full.Op} {len : Nat}

theorem Spec.GRun.filled (h : GRun cfg g who what len) (i : ι) : ∀ n ≤ len, RangesFilledBut0 (g n i).log := by
  intro n
  induction n with
  | zero => intro _; exact (Full.init_micro (h.init i) []).filled (by intro us hu; cases hu)
  | succ n ih =>
    intro hn
    have hst := h.step n (by omega)
    by_cases hi : i = who n
    · have hx := hst.step
      rw [← hi] at hx
      exact (Full.step_micro (Full.reach_inv (h.reach (n := n) (by omega) i)) hx).filled (ih (by omega))
    · rw [hst.others i hi]
      exact ih (by omega)

/-- C125 in a group in which nobody gives the number 0 to publishName: no range is empty. -/
theorem c125_group_partial (hg : IsGroup cfg) (h : GRun cfg g who what len) (hs : Sane cfg (g len))
    (h0 : ∀ j p, (p, 0) ∉ (g len j).made) (i : ι) : RangesFilled (g len i).log := by
  intro us hu u hm
  by_cases h2 : u.highSeq = 0
  · obtain ⟨j, hj⟩ := (h.sourced hg hs (le_refl _) i).updates us hu u hm
    rw [h2] at hj
    exact absurd hj (h0 j _)
  · exact h.filled i len (le_refl _) us hu u hm h2

end

/-- The entries of one call are filled. -/
def FilledBut0 (us : List MissingDataInfo) : Prop := ∀ u ∈ us, u.highSeq ≠ 0 → 1 ≤ u.lowSeq ∧ u.lowSeq ≤ u.highSeq

theorem FilledBut0.add {us : List MissingDataInfo} (h : FilledBut0 us) {p : Name} {lo hi face : Nat} (h1 : hi ≠ 0 → 1 ≤ lo ∧ lo ≤ hi) :
    FilledBut0 (us ++ [⟨p, lo, hi, face⟩]) := by
  intro u hu
  rcases List.mem_append.mp hu with hu | hu
  · exact h u hu
  · cases List.mem_singleton.mp hu
    exact h1

namespace Cons

theorem sync_filled {names : List Name} {ps : NMap Nat} {r : NMap Nat × List MissingDataInfo} (h : foldRes syncStep (ps, []) names = .ok r) :
    FilledBut0 r.2 := by
  refine foldRes_inv (P := fun a => FilledBut0 a.2) names (fun a n a' _ hi h1 => ?_) (fun u hu => by cases hu) h
  obtain ⟨p, q, _, _, ⟨hf, rfl⟩ | ⟨c, hf, hlt, rfl⟩ | ⟨c, _, _, rfl⟩⟩ := syncStep_ok h1
  · exact hi.add (by omega)
  · exact hi.add (by omega)
  · exact hi

theorem hello_filled {subs : NMap Unit} {names : List Name} {ps : NMap Nat} {r : NMap Nat × List MissingDataInfo × NMap Nat}
    (h : foldRes (helloStep subs) (ps, [], []) names = .ok r) : FilledBut0 r.2.1 := by
  refine foldRes_inv (P := fun a => FilledBut0 a.2.1) names (fun a n a' _ hi h1 => ?_) (fun u hu => by cases hu) h
  unfold helloStep at h1
  rw [Res.bind_eq_ok] at h1
  obtain ⟨⟨p, q⟩, h2, h3⟩ := h1
  have hq := (splitName_ok h2).2
  simp only at h3
  split at h3
  · split at h3
    · rename_i hlt
      cases h3
      refine hi.add (fun _ => ?_)
      rw [Nat.mod_eq_of_lt (by omega)]
      omega
    · cases h3
      exact hi
  · cases h3
    exact hi

end Cons

theorem filledBut0_single (p : Name) (q : Nat) : FilledBut0 [⟨p, q % U64, q % U64, 0⟩] := fun u hu hn => by
  cases List.mem_singleton.mp hu
  simp only at hn ⊢
  omega

/-- C125 for one consumer, whatever it receives and whatever its application calls: only a range whose highest number is 0 can be empty. -/
theorem c125_consumer_partial (cc : CCfg) (s0 s : Cons) (ops : List Cons.Op) (h0 : Cons.init cc = .ok s0)
    (h : Cons.run cc s0 ops = .ok s) : RangesFilledBut0 s.log := by
  have hsub : ∀ p q, FilledBut0 [⟨p, q % U64, q % U64, 0⟩] := filledBut0_single
  have hi : Cons.Gave (fun _ => True) FilledBut0 s0 := by
    unfold Cons.init at h0
    simp only [Res.bind_eq_ok, Res.ok.injEq] at h0
    obtain ⟨_, _, rfl⟩ := h0
    exact ⟨fun _ _ => trivial, fun us hu => by cases hu⟩
  have := foldRes_inv (P := Cons.Gave (fun _ => True) FilledBut0) ops (fun _ op _ _ hi h1 =>
    hi.step (fun _ _ _ _ _ _ _ _ hr => ⟨trivial, Cons.hello_filled hr⟩) (fun _ _ _ _ _ _ _ _ hr => Cons.sync_filled hr)
      (fun p q _ _ _ => hsub p q) h1) hi h
  exact this.upd

/-- Nothing that is published has the number 0. -/
def Spec.NoZero (what : Nat → PSEv) (n : Nat) : Prop := ∀ k < n, ∀ p q, what k = .prod (.publishName p (some q)) → q % 2 ^ 64 ≠ 0

/-- A reply to a sync Interest lists no number 0. -/
def PositiveReply (cfg : Cfg) (G : Base → Prop) (e : Name × Bytes × Nat) : Prop :=
  (∃ c, e.1 = cfg.syncPrefix ++ [HELLO, c]) ∨
  ∃ b content, G b ∧ e.2.1 = encodeNames content ∧ ∀ n ∈ content, ∃ p x, b.getSeqNo p = some x ∧ n = Name.appendNumber p x ∧ x ≠ 0

theorem Part.step_positive {cfg : Cfg} {s s' : Part} (hr : Reach cfg s) {op : Op} (h : step cfg s op = .ok s') (hinv : s'.base.Inv)
    (h0 : ∀ p q, op = .publishName p (some q) → q % 2 ^ 64 ≠ 0) {G : Base → Prop} (hG : G s'.base)
    {e : Name × Bytes × Nat} (hm : e ∈ s'.replies) : e ∈ s.replies ∨ PositiveReply cfg G e := by
  have hpk := reach_parked hr
  rcases (step_micro hpk h).newReplies hm with h1 | ⟨b, m, rfl, h2⟩
  · exact .inl h1
  right
  obtain ⟨nm, buf, fr⟩ := e
  simp only at h2
  unfold PositiveReply
  simp only
  cases h2 with
  | hello c hc => exact .inl ⟨c, rfl⟩
  | asked n key bf iblt diff content c _ hf _ hd hc hcol hc' =>
    refine .inr ⟨_, content, hG, rfl, fun n hn => ?_⟩
    rcases (Part.collect_spec _ _ _ hcol n).mp hn with h | ⟨j, _, h8, h9⟩
    · simp at h
    · obtain ⟨_, p, x, hp, hx, rfl⟩ := hinv.bm _ _ (BiMap.findLeft_some h8)
      exact ⟨p, x, hp, rfl, hx⟩
  | parked p x key bf iblt diff sub c hw hpark hp hd hc hsub hc' =>
    obtain ⟨seq, rfl⟩ := hw
    refine .inr ⟨_, _, hG, rfl, fun n hn => ?_⟩
    cases sub with
    | false => simp at hn
    | true =>
      simp only [if_true, List.mem_singleton] at hn
      refine ⟨p, x, hp, hn, fun hx => ?_⟩
      subst hx
      rcases publishName_ok (show publishName cfg s p seq = .ok s' from h) with ⟨hnone, rfl⟩ | ⟨cur, b, h1, hb, _, e⟩
      · rw [Base.getSeqNo, hnone] at hp; cases hp
      · rw [e, Base.getSeqNo, Base.find_updateSeqNo hb, if_pos rfl, h1] at hp
        simp only [Option.map_some, Option.some.injEq] at hp
        have hc0 : cur = 0 := by omega
        have hq0 : Full.newSeq seq cur = 0 := by omega
        subst hc0
        cases seq with
        | none => simp [Full.newSeq, U64] at hq0
        | some q => exact h0 p q rfl hq0

section
variable {pc : Cfg} {cc : CCfg} {P : Nat → Part} {C : Nat → Cons} {what : Nat → PSEv} {len : Nat}

theorem Spec.PSRun.positive (h : PSRun pc cc P C what len) (hr : Regular pc P what len) (h0 : NoZero what len) :
    ∀ n ≤ len, ∀ e ∈ (P n).replies, PositiveReply pc (Tables P len) e := by
  intro n
  induction n with
  | zero => intro _ e he; rw [h.initP] at he; simp [Part.init] at he
  | succ n ih =>
    intro hn e he
    cases h.step n (by omega) with
    | prod op hw hs _ =>
      rcases Part.step_positive (h.reachP (n := n) (by omega)) hs ((h.comparable hr).inv _ ⟨n + 1, hn, rfl⟩)
        (fun p q e => h0 n (by omega) p q (e ▸ hw)) (G := Tables P len) ⟨n + 1, hn, rfl⟩ he with h1 | h1
      · exact ih (by omega) e h1
      · exact h1
    | cons op _ _ hs _ _ => rw [hs] at he; exact ih (by omega) e he

theorem Cons.sync_positive {names : List Name} {ps : NMap Nat} {r : NMap Nat × List MissingDataInfo} (h : foldRes syncStep (ps, []) names = .ok r)
    (h0 : ∀ n ∈ names, ∀ p q, announced n = some (p, q) → q ≠ 0) : ∀ u ∈ r.2, u.highSeq ≠ 0 := by
  refine foldRes_inv (P := fun a => ∀ u ∈ a.2, u.highSeq ≠ 0) names (fun a n a' hn hi h1 => ?_) (fun u hu => by cases hu) h
  have add : ∀ p lo q, announced n = some (p, q) → ∀ u ∈ a.2 ++ [⟨p, lo, q, 0⟩], u.highSeq ≠ 0 := by
    intro p lo q ha u hu
    rcases List.mem_append.mp hu with hu | hu
    · exact hi u hu
    · cases List.mem_singleton.mp hu
      exact h0 n hn p q ha
  obtain ⟨p, q, ha, _, ⟨hf, rfl⟩ | ⟨c, hf, hlt, rfl⟩ | ⟨c, _, _, rfl⟩⟩ := syncStep_ok h1
  · exact add p _ q ha
  · exact add p _ q ha
  · exact hi

theorem Cons.hello_positive {subs : NMap Unit} {names : List Name} {ps : NMap Nat} {r : NMap Nat × List MissingDataInfo × NMap Nat}
    (h : foldRes (helloStep subs) (ps, [], []) names = .ok r) : ∀ u ∈ r.2.1, u.highSeq ≠ 0 := by
  refine foldRes_inv (P := fun a => ∀ u ∈ a.2.1, u.highSeq ≠ 0) names (fun a n a' hn hi h1 => ?_) (fun u hu => by cases hu) h
  unfold helloStep at h1
  rw [Res.bind_eq_ok] at h1
  obtain ⟨⟨p, q⟩, h2, h3⟩ := h1
  simp only at h3
  split at h3
  · split at h3
    · rename_i hlt
      cases h3
      intro u hu
      rcases List.mem_append.mp hu with hu | hu
      · exact hi u hu
      · cases List.mem_singleton.mp hu
        simp only
        omega
    · cases h3
      exact hi
  · cases h3
    exact hi

/-- C125 for a consumer whose producer never gives the number 0 to publishName: no range is empty. -/
theorem c125_pubsub_partial (h : PSRun pc cc P C what len) (hm : Matching pc cc) (hr : Regular pc P what len) (h0 : NoZero what len) :
    RangesFilled (C len).log := by
  have key : ∀ n ≤ len, Cons.Gave (fun _ => True) (fun us => FilledBut0 us ∧ ∀ u ∈ us, u.highSeq ≠ 0) (C n) := by
    intro n
    induction n with
    | zero =>
      intro _
      have hi := h.initC
      unfold Cons.init at hi
      simp only [Res.bind_eq_ok, Res.ok.injEq] at hi
      obtain ⟨bf, _, e⟩ := hi
      rw [← e]
      exact ⟨fun m hm => trivial, fun us hu => by simp at hu⟩
    | succ n ih =>
      intro hn
      have ih := ih (by omega)
      cases h.step n (by omega) with
      | prod op _ _ hc => rw [hc]; exact ih
      | cons op hw hs hp hsync hhello =>
        refine ih.step (fun buf a1 a2 e hact st hst r hfold => ⟨trivial, Cons.hello_filled hfold, Cons.hello_positive hfold⟩)
          (fun buf a e hact hk st hst r hfold => ⟨Cons.sync_filled hfold, ?_⟩)
          (fun p q cb _ hq => ⟨filledBut0_single p q, fun u hu => by cases List.mem_singleton.mp hu; exact hq⟩) hs
        obtain ⟨name, segs, h3, h4, _, k, _, d, hdm, _, k4⟩ := h.sync_last (n := n) (by omega) hact (hsync buf a e)
        rcases h.delivered hr (n := n) (by omega) h4 with h6 | ⟨nm, ⟨fr, hrep⟩, ⟨v, g, hpre⟩, hall⟩
        · rw [(h6 d hdm).1] at k4
          exact absurd k4.2 hk
        · rcases h.positive hr h0 n (by omega) _ hrep with ⟨c, hc⟩ | ⟨b, content, hb, hbuf, hcon⟩
          · exfalso
            simp only at hc
            subst hc
            have hpre1 : cc.syncPrefix ++ [SYNC] <+: name := by
              have := List.mem_of_getLast? h3
              simp only [askedUnder, List.mem_filterMap] at this
              obtain ⟨o, _, ho⟩ := this
              split at ho
              · split at ho
                · rename_i hp
                  cases ho
                  exact List.isPrefixOf_iff_prefix.mp hp
                · cases ho
              · cases ho
            rw [hm.syncPrefix] at hpre1
            refine Cons.not_sync_hello pc.syncPrefix ([c] ++ [v] ++ [g]) (hpre1.trans (hpre.trans ⟨[], ?_⟩))
            simp
          · simp only at hbuf
            subst hbuf
            have hl := hr.buffers _ ((h.later (m := n) (by omega) (le_refl _)).1.subset hrep)
            rw [h.decoded hr hb (fun n hn => by obtain ⟨p, x, k1, k2, _⟩ := hcon n hn; exact ⟨p, x, k1, k2⟩) hl hst] at hfold
            refine Cons.sync_positive hfold (fun m hmem p q ha => ?_)
            obtain ⟨p', x, k1, rfl, k3⟩ := hcon m hmem
            rw [announced_appendNumber p' x (((h.comparable hr).inv b hb).lt p' x k1)] at ha
            cases ha
            exact k3
  intro us hu u hmem
  have := (key len (le_refl _)).upd us hu
  exact this.1 u hmem (this.2 u hmem)

/-- C124 for a producer that never gives the number 0 to publishName: all calls of the update callback are counted. -/
theorem c124_all (h : PSRun pc cc P C what len) (hm : Matching pc cc) (hr : Regular pc P what len) (h0 : NoZero what len)
    (hrem : ∀ k < len, ∀ op, what k = .cons op → ∀ p, Cons.Call.removeSubscription p ∉ callsIn op) :
    (updateCalls (C len).log).length ≤ (toldPairs (C len).log).length ∧
    (toldPairs (C len).log).length ≤ (publishCalls what len).length + (subscribeCalls what len).length := by
  have hf := c125_pubsub_partial h hm hr h0
  refine ⟨?_, ?_⟩
  · unfold toldPairs
    rw [List.length_map]
    exact length_le_flatten _ (h.reports hrem len (le_refl _)).full
  · have := c124_bound h hm hr hrem len (le_refl _)
    rwa [List.filter_eq_self.mpr (fun e he => ?_)] at this
    unfold toldPairs at he
    obtain ⟨u, hu, rfl⟩ := List.mem_map.mp he
    obtain ⟨us, hus, hmm⟩ := List.mem_flatten.mp hu
    unfold updateCalls at hus
    obtain ⟨o, ho, hx⟩ := List.mem_filterMap.mp hus
    split at hx
    · cases hx
      have := hf _ ho u hmm
      simp only [ne_eq, decide_not, Bool.not_eq_eq_eq_not, Bool.not_true, decide_eq_false_iff_not]
      omega
    · cases hx

end

/-- The packet with which node 0 answers when its application publishes the number 0. -/
def zeroReply : Data := ⟨emptyInterest.name ++ [⟨54, [1]⟩, ⟨50, [0]⟩], .blob, encodeNames [pA.appendNumber 0], 1000, some ⟨50, [0]⟩⟩

/-- Node 0 adds a prefix, parks the Interest of node 1 and publishes the number 0. -/
def zeroEvents : List (GEv 2) :=
  [{ who := 0, what := .call (.addUserNode pA) }, { who := 0, what := .recvInterest emptyInterest },
   { who := 0, what := .call (.publishName pA (some 0)) },
   { who := 1, what := .complete zeroReply.content [], name := emptyInterest.name,
     base := emptyInterest.name ++ [⟨54, [1]⟩], segs := [zeroReply] }]

theorem zero_run : (grun duoCfg zeroEvents).map (fun sts =>
    decide ((gat duoCfg sts 4 0).made = [(pA, 0)]) && decide ((gat duoCfg sts 4 1).made = []) &&
    decide ((gat duoCfg sts 4 0).replies = [(emptyInterest.name, zeroReply.content, 1000)]) &&
    decide ((gat duoCfg sts 4 1).replies = []) &&
    decide (updateCalls (gat duoCfg sts 4 1).log = [[⟨pA, 1, 0, 0⟩]])) = some true := by decide +kernel

theorem mem_of_updateCalls {log : List Out} {us : List MissingDataInfo} (h : us ∈ updateCalls log) : Out.update us ∈ log := by
  unfold updateCalls at h
  obtain ⟨o, ho, hx⟩ := List.mem_filterMap.mp h
  split at hx
  · cases hx; exact ho
  · cases hx

/-- C125 is false for groups: when a node publishes the number 0 for a new prefix, the others are told the range from 1 to 0. -/
theorem c125_group_false : ¬ GroupRangesFilled := by
  intro hall
  obtain ⟨sts, h1, h2⟩ := Option.of_map zero_run
  simp only [Bool.and_eq_true, decide_eq_true_eq] at h2
  obtain ⟨⟨⟨⟨m0, m1⟩, r0⟩, r1⟩, hc⟩ := h2
  have hs : Sane duoCfg (gat duoCfg sts 4) := by
    refine sane_duo ?_ ?_ ?_ ?_ (by rw [r0]; decide) (by rw [r1]; decide)
    · rw [m0]; intro e he; rw [List.mem_singleton.mp he]; exact nameOf_valid (by decide)
    · rw [m1]; intro e he; cases he
    · rw [r0]; intro e he; rw [List.mem_singleton.mp he]; decide
    · rw [r1]; intro e he; cases he
  have := hall 2 duoCfg (gat duoCfg sts) (gwho zeroEvents 0) (gwhat zeroEvents) 4 duoCfg_group (grun_sound h1 0) hs 1
    [⟨pA, 1, 0, 0⟩] (mem_of_updateCalls (by rw [hc]; simp)) ⟨pA, 1, 0, 0⟩ (by simp)
  simp at this

/-- A consumer subscribes, its sync Interest is parked, it unsubscribes, and the producer publishes the number 0. -/
def zeroScript : List Act := [.prod (.addUserNode pA), .cons (.call (.addSubscription pA 0 false)), .cons (.call .sendHello), .ask,
  .helloPkt, .helloDone [] [], .cons (.call .sendSync), .ask, .cons (.call (.removeSubscription pA)), .prod (.publishName pA (some 0)),
  .syncPkt, .syncDone []]

set_option maxRecDepth 100000 in
/-- C125 is false for consumers: when the producer publishes the number 0 for a new prefix while the Interest of a consumer that has
unsubscribed meanwhile is parked, the consumer is told the range from 1 to 0. -/
theorem c125_consumer_false : ¬ ConsumerRangesFilled := by
  intro hall
  have hx : ((psrun sampleCfg sampleCCfg zeroScript).map fun r =>
      regularB r 12 [(pA, 0)] && decide (updateCalls (psat r 12).2.log = [[⟨pA, 1, 0, 0⟩]])) = some true := by decide +kernel
  obtain ⟨r, hr, hb⟩ := Option.of_map hx
  simp only [Bool.and_eq_true, decide_eq_true_eq] at hb
  obtain ⟨h1, h2⟩ := hb
  have := hall _ _ _ _ _ _ (psrun_sound hr) sample_matching (regular_of h1 (by decide) (by decide +kernel))
    [⟨pA, 1, 0, 0⟩] (mem_of_updateCalls (by rw [show zeroScript.length = 12 from rfl, h2]; simp)) ⟨pA, 1, 0, 0⟩ (by simp)
  simp at this

/-- Non-vacuity for C125: a group in which nobody publishes the number 0, and a range is reported. -/
example : ∃ (g : Nat → Fin 2 → Full) (who : Nat → Fin 2) (what : Nat → Full.Op), IsGroup duoCfg ∧ GRun duoCfg g who what 8 ∧
    Sane duoCfg (g 8) ∧ (∀ j p, (p, 0) ∉ (g 8 j).made) ∧ updateCalls (g 8 0).log = [[⟨pB, 1, 3, 0⟩]] := by
  obtain ⟨sts, h1, h2⟩ := Option.of_map duo_calls
  simp only [Bool.and_eq_true, decide_eq_true_eq] at h2
  obtain ⟨⟨⟨⟨m0, m1⟩, r0⟩, r1⟩, hc⟩ := h2
  refine ⟨gat duoCfg sts, gwho duoEvents 0, gwhat duoEvents, duoCfg_group, grun_sound h1 0, ?_,
    fin2_forall.mpr ⟨fun p hp => ?_, fun p hp => ?_⟩, hc⟩
  · refine sane_duo ?_ ?_ ?_ ?_ (by rw [r0]; decide) (by rw [r1]; decide)
    · rw [m0]; intro e he; rw [List.mem_singleton.mp he]; exact nameOf_valid (by decide)
    · rw [m1]; intro e he; rw [List.mem_singleton.mp he]; exact nameOf_valid (by decide)
    · rw [r0]; intro e he; rw [List.mem_singleton.mp he]; decide
    · rw [r1]; intro e he; rw [List.mem_singleton.mp he]; decide
  · rw [m0] at hp; simp at hp
  · rw [m1] at hp; simp at hp

/-- Non-vacuity for C125: a consumer to which ranges are reported when it subscribes and when a hello reply arrives. -/
example : (Res.bind (Cons.init sampleCCfg) fun s => Cons.run sampleCCfg s
    [.call (.addSubscription pA 5 true), .call .sendHello, .helloComplete (encodeNames [pA.appendNumber 7]) [] []]).get?.map
      (fun s => updateCalls s.log) = some [[⟨pA, 5, 5, 0⟩], [⟨pA, 6, 7, 0⟩]] := by decide +kernel

set_option maxRecDepth 100000 in
/-- Non-vacuity for C125: a producer that does not publish the number 0, and a consumer to which two ranges are reported. -/
example : ∃ (P : Nat → Part) (C : Nat → Cons) (what : Nat → PSEv),
    PSRun sampleCfg sampleCCfg P C what 10 ∧ Matching sampleCfg sampleCCfg ∧ Regular sampleCfg P what 10 ∧ NoZero what 10 ∧
      updateCalls (C 10).log = [[⟨pA, 1, 1, 0⟩, ⟨pB, 1, 1, 0⟩]] := by
  have hx : ((psrun sampleCfg sampleCCfg bothScript).map fun r =>
      regularB r 10 [(pA, 1), (pB, 1)] && decide (updateCalls (psat r 10).2.log = [[⟨pA, 1, 1, 0⟩, ⟨pB, 1, 1, 0⟩]]) &&
      (List.range 10).all (fun k => match pswhat r k with
        | .prod (.publishName _ (some q)) => decide (q % 2 ^ 64 ≠ 0)
        | _ => true)) = some true := by decide +kernel
  obtain ⟨r, hr, hb⟩ := Option.of_map hx
  simp only [Bool.and_eq_true, decide_eq_true_eq] at hb
  obtain ⟨⟨h1, h2⟩, h3⟩ := hb
  refine ⟨_, _, _, psrun_sound hr, sample_matching, regular_of h1 (by decide) (by decide +kernel), fun k hk p q hw => ?_, h2⟩
  have := List.all_eq_true.mp h3 k (List.mem_range.mpr hk)
  rw [hw] at this
  exact of_decide_eq_true this

end PSync
