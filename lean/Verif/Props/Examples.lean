import Verif.Proofs.Examples
import Verif.Props.ConsumerWire
/-!
Property C62: the example consumer subscribes to as many prefixes as it was told.
-/
namespace PSync
open Spec

/-- After every hello callback that is passed enough prefixes the application is subscribed to exactly as many prefixes as
it was told. -/
def Spec.SubscribesAsAsked : Prop :=
  ∀ (cfg : ConsAppCfg) (a : ConsApp) (buf : Bytes), Shuffles cfg → UsableFilter cfg.consumer → ExampleReach cfg a →
    a.cons.helloFetcher = some true → a.cons.helloDataName ≠ [] → Readable buf →
    (∀ x ∈ announcements buf, x.2 + 1 < 2 ^ 64) → cfg.nSub.toNat ≤ (listed buf).length →
    ∃ (a' : ConsApp) (picked : List Name), ConsApp.step cfg a (.helloComplete buf) = .ok a' ∧ picked.length = cfg.nSub.toNat ∧ picked.Nodup ∧
      ∀ p, a'.cons.isSubscribed p = true ↔ p ∈ picked

namespace ConsApp

theorem hello_quiet : ∀ {l : List Name} {a r : NMap Nat × List MissingDataInfo × NMap Nat},
    foldRes (Cons.helloStep []) a l = .ok r → r.1 = a.1 ∧ r.2.1 = a.2.1
  | [], a, r, h => by simp only [foldRes, Res.ok.injEq] at h; subst h; exact ⟨rfl, rfl⟩
  | n :: l, a, r, h => by
    simp only [foldRes, Res.bind_eq_ok] at h
    obtain ⟨b, h1, h2⟩ := h
    obtain ⟨k1, k2⟩ := hello_quiet h2
    unfold Cons.helloStep at h1
    rw [Res.bind_eq_ok] at h1
    obtain ⟨⟨p, q⟩, _, h3⟩ := h1
    obtain ⟨x, y, z⟩ := a
    simp only [NMap.find_nil, Option.isSome_none, Bool.false_eq_true, if_false, Res.ok.injEq] at h3
    subst h3
    exact ⟨k1, k2⟩

theorem updatesOf_firsts : ∀ (l : List (Name × Nat)), (∀ x ∈ l, x.2 + 1 < U64) →
    printUpdates (updatesOf ((l.map Cons.firstUpdate).flatten)) = .ok (l.filter (fun x => decide (x.2 ≠ 0)))
  | [], _ => rfl
  | (p, q) :: l, h => by
    have ih := updatesOf_firsts l (fun x hx => h x (by simp [hx]))
    have hq : q + 1 < U64 := h (p, q) (by simp)
    rw [List.map_cons, List.flatten_cons, updatesOf_append, List.filter_cons]
    by_cases h0 : q = 0
    · have e0 : Cons.firstUpdate (p, q) = [] := by simp [Cons.firstUpdate, h0]
      rw [e0]
      simp only [h0, ne_eq, not_true_eq_false, if_false, decide_false, Bool.false_eq_true]
      exact ih
    · have e0 : Cons.firstUpdate (p, q) = [.update [⟨p, q, q, 0⟩]] := by simp [Cons.firstUpdate, h0]
      rw [e0]
      simp only [h0, ne_eq, not_false_eq_true, if_true, decide_true]
      have e : updatesOf [Out.update [⟨p, q, q, 0⟩]] = [⟨p, q, q, 0⟩] := rfl
      rw [e, List.singleton_append, printUpdates, countUp_ok hq _ q rfl _ (by omega), Res.ok_bind, ih, Res.ok_bind]
      simp [upTo]

/-- Reading past the end of the list of prefixes. -/
theorem hello_ub {cfg : ConsAppCfg} (hs : Shuffles cfg) {a : ConsApp} (hf : a.cons.helloFetcher = some true) {buf : Bytes}
    (hb : Readable buf) (hfew : (listed buf).length < cfg.nSub.toNat) :
    step cfg a (.helloComplete buf) = .ub .outOfBounds := by
  obtain ⟨avail, h1, _, h3⟩ := helloAvail_eq (s := a.cons) hb
  unfold step consOp
  simp only [if_pos hf]
  rw [h1, Res.ok_bind, helloCalls_eq hs, if_neg (by rw [h3.length_eq]; omega)]
  rfl

end ConsApp

/-- C62.  When the hello reply lists fewer prefixes than the application was told to subscribe to, it reads past the end of
its list of prefixes. -/
theorem c62_out_of_bounds (cfg : ConsAppCfg) (a : ConsApp) (buf : Bytes) (hs : Shuffles cfg) (hf : a.cons.helloFetcher = some true)
    (hb : Readable buf) (hfew : (listed buf).length < cfg.nSub.toNat) :
    ConsApp.step cfg a (.helloComplete buf) = .ub .outOfBounds :=
  ConsApp.hello_ub hs hf hb hfew

open ConsApp in
/-- C62, for the first hello callback.  When the hello reply lists enough prefixes, the application subscribes to exactly
as many prefixes as it was told, distinct ones out of the reply and with the numbers listed there, prints those numbers that are not
zero, and sends a sync Interest. -/
theorem c62_subscribes_partial (cfg : ConsAppCfg) (a : ConsApp) (buf : Bytes) (hs : Shuffles cfg) (hu : UsableFilter cfg.consumer)
    (ha : ExampleReach cfg a) (h0 : a.hellos = 0) (hf : a.cons.helloFetcher = some true) (hn : a.cons.helloDataName ≠ [])
    (hb : Readable buf) (hlt : ∀ x ∈ announcements buf, x.2 + 1 < 2 ^ 64) (henough : cfg.nSub.toNat ≤ (listed buf).length) :
    ∃ (a' : ConsApp) (picked : List Name), ConsApp.step cfg a (.helloComplete buf) = .ok a' ∧ picked.length = cfg.nSub.toNat ∧ picked.Nodup ∧
      (∀ p, a'.cons.isSubscribed p = true ↔ p ∈ picked) ∧
      (∀ p ∈ picked, p ∈ listed buf ∧ a'.cons.getSeqNo p = firstNumber buf p) ∧
      a'.printed = a.printed ++ (picked.map (fun p => (p, (firstNumber buf p).getD 0))).filter (fun x => decide (x.2 ≠ 0)) ∧
      ∃ n, a'.cons.log.getLast? = some (.interest n cfg.cc.syncLifetime) ∧ cfg.cc.syncPrefix ++ [SYNC] <+: n := by
  obtain ⟨avail, h1, h2, h3⟩ := helloAvail_eq (s := a.cons) hb
  have hfr := reach_fresh ha h0
  have hM := (reach_cons ha).moment
  obtain ⟨hz, hfpp⟩ := Cons.bloom_sized_of hu.sized hM
  have hperm := hs a.hellos avail.keys
  obtain ⟨picked, hpk⟩ : ∃ l, l = (cfg.shuffle a.hellos avail.keys).take cfg.nSub.toNat := ⟨_, rfl⟩
  have hkeys : avail.keys.Nodup := h3.nodup_iff.mpr (List.nodup_dedup _)
  have hnd : picked.Nodup := by rw [hpk]; exact (hperm.nodup_iff.mpr hkeys).sublist (List.take_sublist _ _)
  have hlen : picked.length = cfg.nSub.toNat := by
    rw [hpk, List.length_take, hperm.length_eq, h3.length_eq]; omega
  have hin : ∀ p ∈ picked, p ∈ listed buf := by
    intro p hp
    rw [hpk] at hp
    exact h3.mem_iff.mp (hperm.mem_iff.mp (List.mem_of_mem_take hp))
  have hnum : ∀ p ∈ picked, ∃ q, firstNumber buf p = some q ∧ q + 1 < U64 := by
    intro p hp
    have := h3.mem_iff.mpr (hin p hp)
    rw [NMap.mem_keys, h2] at this
    obtain ⟨q, hq⟩ := Option.isSome_iff_exists.mp this
    refine ⟨q, hq, ?_⟩
    unfold firstNumber at hq
    rw [Option.map_eq_some_iff] at hq
    obtain ⟨x, hx, rfl⟩ := hq
    exact hlt x (List.mem_of_find?_eq_some hx)
  obtain ⟨adds, hadds⟩ : ∃ l : List (Name × Nat), l = picked.map (fun p => (p, (firstNumber buf p).getD 0)) := ⟨_, rfl⟩
  have hfst : adds.map Prod.fst = picked := by rw [hadds, List.map_map]; exact List.map_id picked
  have haddlt : ∀ x ∈ adds, x.2 + 1 < U64 := by
    intro x hx
    rw [hadds, List.mem_map] at hx
    obtain ⟨p, hp, rfl⟩ := hx
    obtain ⟨q, hq, hq'⟩ := hnum p hp
    simpa [hq] using hq'
  obtain ⟨st, hst, hall⟩ := id hb
  obtain ⟨r, hr⟩ := Cons.helloSteps_total a.cons.subs st.content (a.cons.prefixes, [], []) hall
  have hr' := hr
  rw [hfr.subs] at hr'
  obtain ⟨e1, e2⟩ := hello_quiet hr'
  simp only at e1 e2
  have ib : a.cons.helloDataName.drop (a.cons.helloDataName.length - 1) ≠ [] := by
    intro h
    have := congrArg List.length h
    have hpos := List.length_pos_iff.mpr hn
    simp only [List.length_drop, List.length_nil] at this
    omega
  obtain ⟨s1, k1, k2, k3, k4, k5, k6, k7, k8⟩ := Cons.adds_total (cc := cfg.consumer) adds
    (s := { a.cons with helloFetcher := some false, iblt := a.cons.helloDataName.drop (a.cons.helloDataName.length - 1), prefixes := r.1, log := a.cons.log ++ [.hello r.2.2] })
    hz (fun x _ => by simp only [e1, hfr.prefixes]; rfl) (by rw [hfst]; exact hnd) (fun x hx => by have := haddlt x hx; omega)
  have hsz1 : ∃ cs, s1.bloom.toComponents cfg.consumer.libm = .ok cs := by
    have hM1 : Cons.Moment cfg.consumer s1 := by
      refine hM.trans (C := fun _ => True) ?_
      refine Relation.ReflTransGen.trans ?_ (Cons.calls_micros (fun _ _ => trivial) k1)
      exact ((Relation.ReflTransGen.single (.internal (s' := { a.cons with helloFetcher := some false }) rfl rfl rfl rfl rfl)).tail
        (.helloData st.content r _ hr)).tail (.hello _ r.2.2)
    obtain ⟨_, hf1⟩ := Cons.bloom_sized_of hu.sized hM1
    obtain ⟨th, hth⟩ := Option.isSome_iff_exists.mp hu.sendable
    unfold Bloom.toComponents
    rw [hf1, hth]
    exact ⟨_, rfl⟩
  obtain ⟨cs, hcs⟩ := hsz1
  have hi1 : s1.iblt ≠ [] := by rw [k2]; exact ib
  have hpick : picked.map (pick avail) = adds.map (fun x => Cons.Call.addSubscription x.1 x.2 true) := by
    rw [hadds, List.map_map]
    refine List.map_congr_left (fun p _ => ?_)
    simp only [pick, h2, Function.comp]
  have hco : consOp cfg a (.helloComplete buf) = .ok (.helloComplete buf (adds.map (fun x => Cons.Call.addSubscription x.1 x.2 true) ++ [.sendSync]) []) := by
    unfold consOp
    simp only [if_pos hf]
    rw [h1, Res.ok_bind, helloCalls_eq hs, if_pos (by rw [h3.length_eq]; exact henough), Res.ok_bind, ← hpk, hpick]
  have hcs' : Cons.step cfg.consumer a.cons (.helloComplete buf (adds.map (fun x => Cons.Call.addSubscription x.1 x.2 true) ++ [.sendSync]) []) =
      .ok { s1 with syncFetcher := some true, log := s1.log ++ [.interest (Cons.syncPrefixName cfg.consumer ++ cs ++ s1.iblt) cfg.consumer.syncLifetime] } := by
    unfold Cons.step
    simp only [if_pos hf]
    unfold Cons.onHelloData
    simp only [hst, Res.ok_bind, hr, foldRes_append, Cons.emit]
    rw [k1, Res.ok_bind, e2]
    simp only [foldRes, Cons.call, Cons.sendSyncInterest, if_neg hi1, hcs, Res.ok_bind, List.isEmpty_nil, if_true, leftRunning_stopFetch, Nat.add_zero]
  have hout : printUpdates (updatesOf ((s1.log ++ [Out.interest (Cons.syncPrefixName cfg.consumer ++ cs ++ s1.iblt) cfg.consumer.syncLifetime]).drop
      a.cons.log.length)) = .ok (adds.filter (fun x => decide (x.2 ≠ 0))) := by
    rw [k6]
    simp only [List.append_assoc, List.drop_left]
    rw [updatesOf_append, updatesOf_append]
    have z1 : updatesOf [Out.hello r.2.2] = [] := rfl
    have z2 : updatesOf [Out.interest (Cons.syncPrefixName cfg.consumer ++ (cs ++ s1.iblt)) cfg.consumer.syncLifetime] = [] := rfl
    rw [z1, z2, List.nil_append, List.append_nil]
    exact updatesOf_firsts adds haddlt
  refine ⟨{ cons := { s1 with syncFetcher := some true, log := s1.log ++ [.interest (Cons.syncPrefixName cfg.consumer ++ cs ++ s1.iblt) cfg.consumer.syncLifetime] }, hellos := if a.isHello (.helloComplete buf) then a.hellos + 1 else a.hellos, printed := a.printed ++ adds.filter (fun x => decide (x.2 ≠ 0)) },
    picked, ?_, hlen, hnd, ?_, ?_, ?_, ?_⟩
  · unfold ConsApp.step
    simp only [hco, Res.ok_bind, hcs', hout]
  · intro p
    show (s1.subs.find p).isSome = true ↔ _
    rw [k3 p, hfst, hfr.subs]
    simp
  · intro p hp
    refine ⟨hin p hp, ?_⟩
    show s1.prefixes.find p = _
    obtain ⟨q, hq, _⟩ := hnum p hp
    have := k4 (p, (firstNumber buf p).getD 0) (by rw [hadds]; exact List.mem_map_of_mem hp)
    rw [this, hq]; rfl
  · simp only [hadds]
  · exact ⟨_, List.getLast?_concat .., by
      show cfg.cc.syncPrefix ++ [SYNC] <+: (cfg.cc.syncPrefix ++ [SYNC]) ++ cs ++ s1.iblt
      rw [List.append_assoc]; exact List.prefix_append _ _⟩

/-- An application told to subscribe to `n` prefixes, whose shuffles reverse the list from the second hello callback on. -/
def sampleApp (n : Int) : ConsAppCfg where
  cc := sampleCCfg
  nSub := n
  shuffle := fun k l => if k = 0 then l else l.reverse

theorem sampleApp_shuffles (n : Int) : Shuffles (sampleApp n) := by
  intro k l
  unfold sampleApp
  simp only
  split
  · exact .refl _
  · exact List.reverse_perm _

/-- A hello reply that lists /a with number 2 and /b with number 0. -/
def helloAB : Bytes := encodeNames [pA.appendNumber 2, pB.appendNumber 0]

/-- The first hello fetch is about to complete. -/
def appStart : List ConsApp.Op := [.start, .helloSegment (ibfData (nameOf [115] ++ [HELLO]) .blob [])]

/-- A hello reply, then a nack to the sync Interest, and the next hello fetch is about to complete. -/
def appAgain : List ConsApp.Op :=
  appStart ++ [.helloComplete helloAB, .syncSegment (ibfData (nameOf [115] ++ [SYNC]) .nack []), .syncComplete [],
    .helloSegment (ibfData (nameOf [115] ++ [HELLO]) .blob [])]

/-- The state after the given events. -/
def appRun (n : Int) (ops : List ConsApp.Op) : Res ConsApp :=
  Res.bind (ConsApp.init (sampleApp n)) fun a => ConsApp.run (sampleApp n) a ops

theorem appRun_reach {n : Int} {ops : List ConsApp.Op} {a : ConsApp} (hs : ConsApp.Op.start ∉ ops)
    (h : appRun n (.start :: ops) = .ok a) : ExampleReach (sampleApp n) a := by
  unfold appRun at h
  rw [Res.bind_eq_ok] at h
  obtain ⟨a0, h0, h1⟩ := h
  exact ⟨a0, ops, h0, h1, hs⟩

theorem sample_filter1 : UsableFilter (sampleApp 1).consumer := by
  refine ⟨?_, by decide +kernel⟩
  have h : ((freshFilter (sampleApp 1).consumer).get?.map fun bf => decide (0 < bf.tableSize ∧ 8 * bf.bits.length = bf.tableSize)) = some true := by
    decide +kernel
  obtain ⟨bf, h1, h2⟩ := Res.of_get? h
  have h3 : 0 < bf.tableSize ∧ 8 * bf.bits.length = bf.tableSize := of_decide_eq_true h2
  exact ⟨bf, h1, h3⟩

theorem helloAB_readable : Readable helloAB := by
  have h : ((StateMsg.wireDecode helloAB).get?.map fun st => st.content.all (fun n => (announced n).isSome)) = some true := by
    decide +kernel
  obtain ⟨st, h1, h2⟩ := Res.of_get? h
  exact ⟨st, h1, fun n hn => Option.isSome_iff_exists.mp (List.all_eq_true.mp h2 n hn)⟩

set_option maxRecDepth 100000 in
/-- Non-vacuity for C62: an application told to subscribe to one of two prefixes. -/
example : ∃ (a a' : ConsApp) (picked : List Name), ExampleReach (sampleApp 1) a ∧ a.hellos = 0 ∧ ConsApp.step (sampleApp 1) a (.helloComplete helloAB) = .ok a' ∧
    picked.length = 1 ∧ (∀ p, a'.cons.isSubscribed p = true ↔ p ∈ picked) := by
  have h : ((appRun 1 appStart).get?.map fun a => decide (a.hellos = 0 ∧ a.cons.helloFetcher = some true ∧ a.cons.helloDataName ≠ [])) =
      some true := by decide +kernel
  obtain ⟨a, h1, h2⟩ := Res.of_get? h
  obtain ⟨k1, k2, k3⟩ := of_decide_eq_true h2
  have hr : ExampleReach (sampleApp 1) a := appRun_reach (by decide) h1
  obtain ⟨a', picked, e1, e2, _, e4, _⟩ := c62_subscribes_partial (sampleApp 1) a helloAB (sampleApp_shuffles 1) sample_filter1 hr k1 k2 k3
    helloAB_readable (by decide +kernel) (by decide +kernel)
  exact ⟨a, a', picked, hr, k1, e1, e2, e4⟩

set_option maxRecDepth 100000 in
/-- Non-vacuity for C62: an application told to subscribe to three prefixes when there are only two. -/
example : ∃ a, ExampleReach (sampleApp 3) a ∧ ConsApp.step (sampleApp 3) a (.helloComplete helloAB) = .ub .outOfBounds := by
  have h : ((appRun 3 appStart).get?.map fun a => decide (a.cons.helloFetcher = some true)) = some true := by decide +kernel
  obtain ⟨a, h1, h2⟩ := Res.of_get? h
  exact ⟨a, appRun_reach (by decide) h1, c62_out_of_bounds _ a helloAB (sampleApp_shuffles 3) (of_decide_eq_true h2) helloAB_readable (by decide +kernel)⟩

set_option maxRecDepth 100000 in
/-- C62 is false: told to subscribe to one prefix, the application subscribes to a second one when a nack has made it say
hello again. -/
theorem c62_false : ¬ SubscribesAsAsked := by
  intro hall
  have h : ((appRun 1 appAgain).get?.map fun a => decide (a.cons.helloFetcher = some true ∧ a.cons.helloDataName ≠ [] ∧
      ((ConsApp.step (sampleApp 1) a (.helloComplete helloAB)).get?.map fun a' => (a'.cons.isSubscribed pA, a'.cons.isSubscribed pB)) =
        some (true, true))) = some true := by decide +kernel
  obtain ⟨a, h1, h2⟩ := Res.of_get? h
  obtain ⟨k1, k2, k3⟩ := of_decide_eq_true h2
  have hr : ExampleReach (sampleApp 1) a := appRun_reach (by decide) h1
  obtain ⟨a', picked, e1, e2, _, e4⟩ := hall (sampleApp 1) a helloAB (sampleApp_shuffles 1) sample_filter1 hr k1 k2
    helloAB_readable (by decide +kernel) (by decide +kernel)
  rw [e1] at k3
  simp only [Res.get?, Option.map_some, Option.some.injEq, Prod.mk.injEq] at k3
  have ha := (e4 pA).mp k3.1
  have hb := (e4 pB).mp k3.2
  have hl : picked.length = 1 := e2
  obtain ⟨x, rfl⟩ := List.length_eq_one_iff.mp hl
  rw [List.mem_singleton] at ha hb
  have : pA = pB := ha.trans hb.symm
  revert this
  decide

end PSync
