import Verif.Props.Examples
/-!
Properties C63 and C64: what the example applications print.
-/
namespace PSync
open Spec

/-- The numbers in a list of ranges. -/
def Spec.numbersIn (l : List (Nat × Nat)) : List Nat := (l.map (fun r => upTo r.1 r.2)).flatten

theorem tiles_numbers {a b : Nat} {l : List (Nat × Nat)} (h : Tiles a l b) : numbersIn l = upTo (a + 1) b := by
  induction h with
  | nil a => simp [numbersIn, upTo]
  | @cons a b h l hle ht ih =>
    unfold numbersIn at ih ⊢
    rw [List.map_cons, List.flatten_cons, ih]
    have := ht.le
    unfold upTo
    rw [show h + 1 - (a + 1) = h - a by omega, show b + 1 - (h + 1) = b - h by omega, show b + 1 - (a + 1) = (h - a) + (b - h) by omega]
    rw [← List.range'_append_1, show a + 1 + (h - a) = h + 1 by omega]

theorem printedFor_append (p : Name) (l l' : List (Name × Nat)) : printedFor p (l ++ l') = printedFor p l ++ printedFor p l' := by
  simp [printedFor]

theorem prints_append (l l' : List MissingDataInfo) : prints (l ++ l') = prints l ++ prints l' := by simp [prints]

theorem printedFor_prints (p : Name) : ∀ (us : List MissingDataInfo),
    printedFor p (prints us) = numbersIn ((us.filter (fun u => u.pfx = p)).map (fun u => (u.lowSeq, u.highSeq)))
  | [] => rfl
  | u :: us => by
    have ih := printedFor_prints p us
    have e : prints (u :: us) = (upTo u.lowSeq u.highSeq).map (fun i => (u.pfx, i)) ++ prints us := rfl
    rw [e, printedFor_append, ih, List.filter_cons]
    by_cases h : u.pfx = p
    · simp only [h, decide_true, if_true, List.map_cons, numbersIn, List.flatten_cons]
      congr 1
      unfold printedFor
      rw [List.filter_eq_self.mpr (by simp), List.map_map]
      exact List.map_id _
    · simp only [h, decide_false, Bool.false_eq_true, if_false]
      rw [show printedFor p ((upTo u.lowSeq u.highSeq).map (fun i => (u.pfx, i))) = [] from ?_, List.nil_append]
      unfold printedFor
      rw [List.filter_eq_nil_iff.mpr (by simp [h])]
      rfl

theorem notified_numbers (p : Name) : ∀ (ext : List Out), printedFor p (prints (updatesOf ext)) = numbersIn (notified p ext)
  | [] => rfl
  | o :: ext => by
    have ih := notified_numbers p ext
    have e : updatesOf (o :: ext) = updatesOf [o] ++ updatesOf ext := updatesOf_append [o] ext
    rw [e, prints_append, printedFor_append, ih]
    cases o with
    | update us =>
      have e1 : updatesOf [Out.update us] = us := by simp [updatesOf]
      rw [e1, printedFor_prints]
      simp [notified, numbersIn]
    | _ => simp [updatesOf, prints, printedFor, notified]

namespace ConsApp

/-- What the calls in the hello callback do to the number of `p` and report for it. -/
theorem calls_adds {cfg : CCfg} {p : Name} : ∀ {cs : List Cons.Call} {s s' : Cons}, (∀ c ∈ cs, c = .sendSync ∨ ∃ n q, c = .addSubscription n q true) →
    s.getSeqNo p = none → foldRes (Cons.call cfg) s cs = .ok s' →
    ∃ ext, s'.log = s.log ++ ext ∧ ((s'.getSeqNo p = none ∧ notified p ext = []) ∨
      ∃ x, s'.getSeqNo p = some x ∧ notified p ext = if x = 0 then [] else [(x, x)])
  | [], s, s', _, hp, h => by
    simp only [foldRes, Res.ok.injEq] at h
    subst h
    exact ⟨[], by simp, .inl ⟨hp, rfl⟩⟩
  | c :: cs, s, s', hc, hp, h => by
    simp only [foldRes, Res.bind_eq_ok] at h
    obtain ⟨s1, h1, h2⟩ := h
    have hcs : ∀ c ∈ cs, c = .sendSync ∨ ∃ n q, c = .addSubscription n q true := fun c' h' => hc c' (by simp [h'])
    have quiet : ∀ {ext1}, s1.log = s.log ++ ext1 → s1.getSeqNo p = none → notified p ext1 = [] →
        ∃ ext, s'.log = s.log ++ ext ∧ ((s'.getSeqNo p = none ∧ notified p ext = []) ∨
          ∃ x, s'.getSeqNo p = some x ∧ notified p ext = if x = 0 then [] else [(x, x)]) := by
      intro ext1 e1 e2 e3
      obtain ⟨ext, k1, k2⟩ := calls_adds hcs e2 h2
      refine ⟨ext1 ++ ext, by rw [k1, e1, List.append_assoc], ?_⟩
      rw [notified_append, e3, List.nil_append]
      exact k2
    rcases hc c (by simp) with rfl | ⟨n, q, rfl⟩
    · obtain ⟨_, cs', _, rfl⟩ := Cons.sendSyncInterest_ok (show s.sendSyncInterest cfg = .ok s1 from h1)
      exact quiet rfl hp rfl
    · simp only [Cons.call, Res.bind_eq_ok, Res.ok.injEq] at h1
      obtain ⟨⟨r, t⟩, k0, rfl⟩ := h1
      rcases Cons.addSubscription_ok k0 with ⟨_, _, rfl⟩ | ⟨hx, _, bf, _, k1, _, _, _, k2⟩
      · exact quiet (ext1 := []) (by simp) hp rfl
      · by_cases hn : n = p
        · subst hn
          have hseq : t.getSeqNo n = some (q % U64) := by
            unfold Cons.getSeqNo
            rw [k1, NMap.find_set, if_pos rfl]
          obtain ⟨ext, j1, j2, j3⟩ := Cons.calls_quiet (p := n) (s := t) (fun c hc' => by
            refine ⟨?_, .inl (by rw [hseq]; rfl)⟩
            rcases hcs c hc' with rfl | ⟨_, _, rfl⟩ <;> simp) h2
          refine ⟨_, by rw [j1, k2, List.append_assoc], .inr ⟨q % U64, by rw [j2, hseq], ?_⟩⟩
          rw [notified_append, j3, List.append_nil]
          by_cases h0 : q % U64 = 0
          · simp [h0, notified]
          · simp [h0, notified]
        · refine quiet k2 ?_ ?_
          · unfold Cons.getSeqNo
            rw [k1, NMap.find_set, if_neg hn]
            exact hp
          · split
            · simp [notified, hn]
            · rfl

/-- The numbers printed for a prefix are those up to the one known. -/
def Printed (p : Name) (s : Cons) (out : List (Name × Nat)) : Prop :=
  (s.getSeqNo p = none → printedFor p out = []) ∧
  ∀ x, s.getSeqNo p = some x → ∃ lo, 1 ≤ lo ∧ lo ≤ x + 1 ∧ printedFor p out = upTo lo x

theorem helloCalls_form {cfg : ConsAppCfg} {k : Nat} {avail : NMap Nat} {acts : List Cons.Call} (h : helloCalls cfg k avail = .ok acts) :
    ∀ c ∈ acts, c = .sendSync ∨ ∃ n q, c = .addSubscription n q true := by
  unfold helloCalls at h
  rw [Res.bind_eq_ok] at h
  obtain ⟨r, h1, h2⟩ := h
  cases h2
  have : ∀ {is : List Nat} {r : List Cons.Call}, picks avail (cfg.shuffle k avail.keys) is = .ok r →
      ∀ c ∈ r, ∃ n q, c = .addSubscription n q true := by
    intro is
    induction is with
    | nil => intro r h; cases h; simp
    | cons i is ih =>
      intro r h
      unfold picks at h
      split at h
      · cases h
      · split at h
        · cases h
        · rw [Res.bind_eq_ok] at h
          obtain ⟨r', h3, h4⟩ := h
          cases h4
          intro c hc
          rcases List.mem_cons.mp hc with rfl | hc
          · exact ⟨_, _, rfl⟩
          · exact ih h3 c hc
  intro c hc
  rcases List.mem_append.mp hc with hc | hc
  · exact .inr (this h1 c hc)
  · exact .inl (List.mem_singleton.mp hc)

/-- The calls made during an event. -/
theorem consOp_calls {cfg : ConsAppCfg} {a : ConsApp} {op : Op} {o : Cons.Op} (h : consOp cfg a op = .ok o) :
    (∀ c ∈ callsIn o, c = .sendHello ∨ c = .sendSync ∨ ∃ n q, c = .addSubscription n q true) ∧
    ((∀ c ∈ callsIn o, c = .sendHello ∨ c = .sendSync) ∨
      ∃ buf acts, a.cons.helloFetcher = some true ∧ o = .helloComplete buf acts [] ∧ op = .helloComplete buf ∧
        ∀ c ∈ acts, c = .sendSync ∨ ∃ n q, c = .addSubscription n q true) := by
  cases op with
  | helloComplete buf =>
    simp only [consOp] at h
    split at h
    · rename_i hf
      simp only [Res.bind_eq_ok, Res.ok.injEq] at h
      obtain ⟨avail, _, acts, h2, rfl⟩ := h
      have hfm := helloCalls_form h2
      refine ⟨fun c hc => ?_, .inr ⟨buf, acts, hf, rfl, rfl, hfm⟩⟩
      simp only [callsIn, List.append_nil] at hc
      exact .inr (hfm c hc)
    · cases h
      refine ⟨fun c hc => ?_, .inl fun c hc => ?_⟩ <;>
      · simp only [callsIn, List.append_nil, List.mem_singleton] at hc
        simp [hc]
  | start =>
    cases h
    refine ⟨fun c hc => ?_, .inl fun c hc => ?_⟩ <;>
    · simp only [callsIn, List.mem_singleton] at hc
      simp [hc]
  | _ =>
    cases h
    exact ⟨fun c hc => by simp [callsIn] at hc, .inl fun c hc => by simp [callsIn] at hc⟩

theorem Printed.step {cfg : ConsAppCfg} {a a' : ConsApp} {op : Op} {p : Name} (hr : Cons.Reach cfg.consumer a.cons)
    (hp : Printed p a.cons a.printed) (h : step cfg a op = .ok a') : Printed p a'.cons a'.printed := by
  obtain ⟨o, out, h1, h2, h3, h4, _⟩ := step_inv h
  obtain ⟨c1, c2⟩ := consOp_calls h1
  have hrun : Cons.run cfg.consumer a.cons [o] = .ok a'.cons := by
    unfold Cons.run
    simp only [foldRes, h2, Res.ok_bind]
  have hout : ∀ {ext}, a'.cons.log = a.cons.log ++ ext → printedFor p a'.printed = printedFor p a.printed ++ numbersIn (notified p ext) := by
    intro ext e
    rw [h4, printedFor_append, (printUpdates_inv h3).1, e, List.drop_left, notified_numbers]
  cases hx : a.cons.getSeqNo p with
  | some x =>
    obtain ⟨lo, l1, l2, l3⟩ := hp.2 x hx
    obtain ⟨ext, y, e1, e2, e3, e4, _⟩ := c46_ranges cfg.consumer a.cons a'.cons hr p x hx [o] (by
      intro op hop hc
      rw [List.mem_singleton] at hop
      subst hop
      rcases c1 _ hc with h | h | ⟨_, _, h⟩ <;> cases h) hrun
    refine ⟨fun h => (by rw [e2] at h; cases h), fun x' hx' => ?_⟩
    rw [e2, Option.some.injEq] at hx'
    subst hx'
    refine ⟨lo, l1, by omega, ?_⟩
    rw [hout e1, l3, tiles_numbers e4]
    unfold upTo
    rw [show y + 1 - (x + 1) = y - x by omega, show y + 1 - lo = (x + 1 - lo) + (y - x) by omega, ← List.range'_append_1,
      show lo + (x + 1 - lo) = x + 1 by omega]
  | none =>
    have hp0 := hp.1 hx
    rcases c2 with c2 | ⟨buf, acts, hf, rfl, _, hac⟩
    · obtain ⟨ext, e1, e2⟩ := c46_ranges_new cfg.consumer a.cons a'.cons hr p [o] (by
        intro op hop c hc
        rw [List.mem_singleton] at hop
        subst hop
        rcases c2 c hc with rfl | rfl <;> simp) hrun
      have e3 := hout e1
      rw [hp0, List.nil_append, tiles_numbers e2, hx] at e3
      refine ⟨fun hn => ?_, fun x hx' => ⟨1, le_refl _, by omega, ?_⟩⟩
      · rw [e3, hn]; rfl
      · rw [e3, hx']; rfl
    · obtain ⟨bf0, _, hi⟩ := hr.moment.inv
      have hsub : a.cons.subs.find p = none := by
        cases hs : a.cons.subs.find p with
        | none => rfl
        | some u =>
          have := hi.sub p (by rw [hs]; rfl)
          rw [show a.cons.prefixes.find p = none from hx] at this
          cases this
      simp only [Cons.step, hf, if_true] at h2
      unfold Cons.onHelloData at h2
      simp only [Res.bind_eq_ok] at h2
      obtain ⟨st, _, r, hr', s1, k1, k2⟩ := h2
      have hfold : r.1.find p = none ∧ ∀ u ∈ r.2.1, u.pfx ≠ p := by
        have := foldRes_inv (P := fun r : NMap Nat × List MissingDataInfo × NMap Nat =>
          (∀ p, (a.cons.subs.find p).isSome → (r.1.find p).isSome) ∧ r.1.find p = none ∧ ∀ u ∈ r.2.1, u.pfx ≠ p) st.content (by
            rintro b n b' _ ⟨i1, i2, i3⟩ hst
            obtain ⟨p', q, _, _, _, ⟨c, j1, j2, _, j4, j5⟩ | ⟨_, j4, j5⟩⟩ := Cons.helloStep_ok i1 hst
            · have hne : p' ≠ p := fun e => by subst e; rw [hsub] at j1; cases j1
              refine ⟨fun p2 hp2 => ?_, ?_, ?_⟩
              · rw [j4, NMap.find_set]; split
                · rfl
                · exact i1 p2 hp2
              · rw [j4, NMap.find_set, if_neg hne]; exact i2
              · intro u hu
                rw [j5] at hu
                rcases List.mem_append.mp hu with hu | hu
                · exact i3 u hu
                · rw [List.mem_singleton] at hu; subst hu; exact hne
            · rw [j4, j5]; exact ⟨i1, i2, i3⟩) (s := (a.cons.prefixes, [], [])) ⟨hi.sub, hx, by simp⟩ hr'
        exact this.2
      obtain ⟨ext, e1, e2⟩ := calls_adds (p := p) hac (by exact hfold.1) k1
      have hlast : ∃ ext', a'.cons.log = a.cons.log ++ ext' ∧ notified p ext' = notified p ext ∧ a'.cons.getSeqNo p = s1.getSeqNo p := by
        have hup : notified p [Out.update r.2.1] = [] := by
          simp only [notified, List.append_nil, List.map_eq_nil_iff, List.filter_eq_nil_iff]
          intro u hu
          simp [hfold.2 u hu]
        split at k2
        · simp only [Res.ok.injEq] at k2
          rw [← k2]
          refine ⟨.hello r.2.2 :: ext, by rw [e1]; simp [Cons.emit], rfl, rfl⟩
        · simp only [foldRes, Res.ok.injEq] at k2
          rw [← k2]
          refine ⟨.hello r.2.2 :: (ext ++ [.update r.2.1]), by simp [Cons.emit, e1], ?_, rfl⟩
          show notified p (ext ++ [.update r.2.1]) = _
          rw [notified_append, hup, List.append_nil]
      obtain ⟨ext', f1, f2, f3⟩ := hlast
      have f4 := hout f1
      rw [hp0, List.nil_append, f2] at f4
      rw [← f3] at e2
      rcases e2 with ⟨g1, g2⟩ | ⟨x, g1, g2⟩
      · refine ⟨fun _ => by rw [f4, g2]; rfl, fun x hx' => by rw [g1] at hx'; cases hx'⟩
      · refine ⟨fun hn => (by rw [g1] at hn; cases hn), fun x' hx' => ?_⟩
        rw [g1, Option.some.injEq] at hx'
        subst hx'
        by_cases h0 : x = 0
        · rw [if_pos h0] at g2
          exact ⟨1, le_refl _, by omega, by rw [f4, g2, h0]; rfl⟩
        · rw [if_neg h0] at g2
          exact ⟨x, by omega, by omega, by rw [f4, g2]; simp [numbersIn]⟩

end ConsApp

/-- C63.  What the example consumer has printed for a prefix are consecutive numbers in increasing order, each once, up to
the number its consumer knows for the prefix. -/
theorem c63_prints_consecutive (cfg : ConsAppCfg) (a : ConsApp) (ha : ExampleReach cfg a) (p : Name) :
    (a.cons.getSeqNo p = none → printedFor p a.printed = []) ∧
    ∀ x, a.cons.getSeqNo p = some x → ∃ lo, 1 ≤ lo ∧ lo ≤ x + 1 ∧ printedFor p a.printed = upTo lo x := by
  obtain ⟨a0, ops, h0, h1, -⟩ := ha
  unfold ConsApp.init at h0
  simp only [Res.bind_eq_ok, Res.ok.injEq] at h0
  obtain ⟨c, h0, rfl⟩ := h0
  have := foldRes_inv (P := fun a : ConsApp => Cons.Reach cfg.consumer a.cons ∧ ConsApp.Printed p a.cons a.printed) _ (by
    rintro s op s' _ ⟨hs, hp⟩ hst
    refine ⟨?_, hp.step hs hst⟩
    obtain ⟨o, _, _, h2, -⟩ := ConsApp.step_inv hst
    obtain ⟨s0, l, k1, k2⟩ := hs
    exact ⟨s0, l ++ [o], k1, by
      unfold Cons.run at k2 ⊢
      rw [foldRes_append, k2, Res.ok_bind]; simp only [foldRes, h2, Res.ok_bind]⟩)
    (s := (⟨c, 0, []⟩ : ConsApp)) ⟨⟨c, [], h0, rfl⟩, ⟨fun _ => rfl, fun x hx => by
      obtain ⟨_, _, _, e, _⟩ := Cons.init_ok h0
      unfold Cons.getSeqNo at hx
      rw [e] at hx
      cases hx⟩⟩ h1
  exact this.2

/-- A hello reply, then a sync reply that announces the number `n` for /a. -/
def appSync (n : Nat) : List ConsApp.Op :=
  appStart ++ [.helloComplete helloAB, .syncSegment (ibfData (nameOf [115] ++ [SYNC]) .blob []),
    .syncComplete (encodeNames [pA.appendNumber n])]

set_option maxRecDepth 100000 in
/-- Non-vacuity for C63: subscribed to /a at number 2, told of number 5: prints 2, 3, 4, 5. -/
example : ∃ a, ExampleReach (sampleApp 2) a ∧ a.cons.getSeqNo pA = some 5 ∧ printedFor pA a.printed = [2, 3, 4, 5] := by
  have h : ((appRun 2 (appSync 5)).get?.map fun a => decide (a.cons.getSeqNo pA = some 5 ∧ printedFor pA a.printed = [2, 3, 4, 5])) =
      some true := by decide +kernel
  obtain ⟨a, h1, h2⟩ := Res.of_get? h
  exact ⟨a, appRun_reach (by decide) h1, of_decide_eq_true h2⟩

/-- The printing in the update callback of an example application ends: an event that the library deals with is dealt with. -/
def Spec.PrintingEnds : Prop :=
  (∀ (cfg : ConsAppCfg) (a : ConsApp) (op : ConsApp.Op) (o : Cons.Op) (c : Cons), ExampleReach cfg a →
    ConsApp.consOp cfg a op = .ok o → Cons.step cfg.consumer a.cons o = .ok c → ∃ a', ConsApp.step cfg a op = .ok a') ∧
  ∀ (cfg : PubAppCfg) (a0 a : FullApp) (ops : List FullApp.Op) (op : Full.Op) (s : Full), FullApp.init cfg = .ok a0 →
    FullApp.run cfg a0 ops = .ok a → FullApp.outside op = true → Full.step cfg.pc a.prod op = .ok s →
    ∃ a', FullApp.step cfg a (.prod op) = .ok a'

/-- C64, for numbers below the largest uint64_t.  The example consumer prints exactly the numbers in the ranges passed to the
update callback, in order. -/
theorem c64_consumer_partial (cfg : ConsAppCfg) (a : ConsApp) (op : ConsApp.Op) (o : Cons.Op) (c : Cons)
    (h1 : ConsApp.consOp cfg a op = .ok o) (h2 : Cons.step cfg.consumer a.cons o = .ok c)
    (hlt : ∀ u ∈ updatesOf (c.log.drop a.cons.log.length), u.highSeq + 1 < 2 ^ 64) :
    ∃ a', ConsApp.step cfg a op = .ok a' ∧ a'.cons = c ∧ a'.printed = a.printed ++
      ((updatesOf (c.log.drop a.cons.log.length)).map (fun u => (upTo u.lowSeq u.highSeq).map (fun i => (u.pfx, i)))).flatten := by
  refine ⟨_, by unfold ConsApp.step; rw [h1, Res.ok_bind, h2, Res.ok_bind, printUpdates_ok _ hlt, Res.ok_bind], rfl, rfl⟩

/-- C64 for the example of full sync, for numbers below the largest uint64_t. -/
theorem c64_full_partial (cfg : PubAppCfg) (a : FullApp) (op : Full.Op) (s : Full) (ho : FullApp.outside op = true)
    (h : Full.step cfg.pc a.prod op = .ok s) (hlt : ∀ u ∈ updatesOf (s.log.drop a.prod.log.length), u.highSeq + 1 < 2 ^ 64) :
    ∃ a', FullApp.step cfg a (.prod op) = .ok a' ∧ a'.prod = s ∧ a'.printed = a.printed ++
      ((updatesOf (s.log.drop a.prod.log.length)).map (fun u => (upTo u.lowSeq u.highSeq).map (fun i => (u.pfx, i)))).flatten := by
  refine ⟨_, by simp only [FullApp.step, ho, if_true]; unfold FullApp.produce; rw [h, Res.ok_bind, printUpdates_ok _ hlt, Res.ok_bind], rfl, rfl⟩

/-- C64.  The example consumer never gets out of its update callback when a range ends at the largest uint64_t. -/
theorem c64_consumer_hangs (cfg : ConsAppCfg) (a : ConsApp) (op : ConsApp.Op) (o : Cons.Op) (c : Cons) (u : MissingDataInfo)
    (h1 : ConsApp.consOp cfg a op = .ok o) (h2 : Cons.step cfg.consumer a.cons o = .ok c)
    (hu : u ∈ updatesOf (c.log.drop a.cons.log.length)) (hlo : u.lowSeq ≤ u.highSeq) (hhi : u.highSeq = 2 ^ 64 - 1) :
    ConsApp.step cfg a op = .hang := by
  unfold ConsApp.step
  rw [h1, Res.ok_bind, h2, Res.ok_bind, printUpdates_hang hu hlo (by rw [hhi]; decide), Res.hang_bind]

/-- C64.  Nor does the example of full sync. -/
theorem c64_full_hangs (cfg : PubAppCfg) (a : FullApp) (op : Full.Op) (s : Full) (u : MissingDataInfo) (ho : FullApp.outside op = true)
    (h : Full.step cfg.pc a.prod op = .ok s) (hu : u ∈ updatesOf (s.log.drop a.prod.log.length)) (hlo : u.lowSeq ≤ u.highSeq)
    (hhi : u.highSeq = 2 ^ 64 - 1) : FullApp.step cfg a (.prod op) = .hang := by
  simp only [FullApp.step, ho, if_true]
  unfold FullApp.produce
  rw [h, Res.ok_bind, printUpdates_hang hu hlo (by rw [hhi]; decide), Res.hang_bind]

set_option maxRecDepth 100000 in
/-- C64 is false: a sync reply that announces the largest uint64_t for a subscribed prefix. -/
theorem c64_false : ¬ PrintingEnds := by
  intro hall
  have h : ((appRun 2 ((appSync 5).take 4)).get?.map fun a =>
      ((Cons.step (sampleApp 2).consumer a.cons (.syncComplete (encodeNames [pA.appendNumber (2 ^ 64 - 1)]) [])).get?.map fun c =>
        decide (⟨pA, 3, 2 ^ 64 - 1, 0⟩ ∈ updatesOf (c.log.drop a.cons.log.length)))) = some (some true) := by decide +kernel
  obtain ⟨a, h1, h2⟩ := Res.of_get? h
  obtain ⟨c, h3, h4⟩ := Res.of_get? h2
  have hr : ExampleReach (sampleApp 2) a := appRun_reach (by decide) h1
  have ho : ConsApp.consOp (sampleApp 2) a (.syncComplete (encodeNames [pA.appendNumber (2 ^ 64 - 1)])) =
    .ok (.syncComplete (encodeNames [pA.appendNumber (2 ^ 64 - 1)]) []) := rfl
  obtain ⟨a', ha'⟩ := hall.1 _ a _ _ c hr ho h3
  rw [c64_consumer_hangs _ a _ _ c _ ho h3 (of_decide_eq_true h4) (by decide) rfl] at ha'
  cases ha'

end PSync
