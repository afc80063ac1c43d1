import Verif.Props.ConsumerWire
import Verif.Props.FullAnswer
import Verif.Props.State
/-!
Property C35: what received Data contents can do.
-/
namespace PSync
open Spec

/-- The content is a PSyncContent block of names each of which ends in a number. -/
def Spec.Proper (buf : Bytes) : Prop :=
  ∃ ns, IsContent buf ns ∧ ∀ n ∈ ns, (announced n).isSome = true

theorem proper_iff (buf : Bytes) :
    Proper buf ↔ ∃ st, StateMsg.wireDecode buf = .ok st ∧ ∀ n ∈ st.content, (announced n).isSome = true := by
  constructor
  · rintro ⟨ns, h1, h2⟩
    exact ⟨⟨ns, some buf⟩, wireDecode_iff.mpr ⟨h1, rfl⟩, h2⟩
  · rintro ⟨st, h1, h2⟩
    exact ⟨_, (wireDecode_iff.mp h1).1, h2⟩

/-- A fold succeeds iff every element can be handled, when that does not depend on the accumulator. -/
theorem foldRes_total_iff {σ ι : Type} {f : σ → ι → Res σ} {P : ι → Prop} (h : ∀ s x, (∃ s', f s x = .ok s') ↔ P x) :
    ∀ (l : List ι) (s : σ), (∃ s', foldRes f s l = .ok s') ↔ ∀ x ∈ l, P x
  | [], s => by simp [foldRes]
  | x :: l, s => by
    simp only [foldRes, Res.bind_eq_ok, List.mem_cons, forall_eq_or_imp]
    rw [← h s x]
    constructor
    · rintro ⟨s', s1, h1, h2⟩
      exact ⟨⟨s1, h1⟩, (foldRes_total_iff h l s1).mp ⟨s', h2⟩⟩
    · rintro ⟨⟨s1, h1⟩, h2⟩
      obtain ⟨s', h3⟩ := (foldRes_total_iff h l s1).mpr h2
      exact ⟨s', s1, h1, h3⟩

theorem splitName_iff (n : Name) : (∃ r, Cons.splitName n = .ok r) ↔ (announced n).isSome = true := by
  rw [Option.isSome_iff_exists]
  constructor
  · rintro ⟨⟨p, q⟩, h⟩
    exact ⟨_, (Cons.splitName_ok h).1⟩
  · rintro ⟨⟨p, q⟩, h⟩
    exact ⟨_, Cons.splitName_of h⟩

theorem syncStep_iff (a : NMap Nat × List MissingDataInfo) (n : Name) :
    (∃ a', Cons.syncStep a n = .ok a') ↔ (announced n).isSome = true := by
  rw [← splitName_iff]
  unfold Cons.syncStep
  cases Cons.splitName n with
  | ok r =>
    simp only [Res.ok_bind, Res.ok.injEq, exists_eq', iff_true]
    split
    · exact ⟨_, rfl⟩
    · split <;> exact ⟨_, rfl⟩
  | throw e => simp [Res.bind]
  | ub u => simp [Res.bind]
  | hang => simp [Res.bind]

theorem helloStep_iff (subs : NMap Unit) (a : NMap Nat × List MissingDataInfo × NMap Nat) (n : Name) :
    (∃ a', Cons.helloStep subs a n = .ok a') ↔ (announced n).isSome = true := by
  rw [← splitName_iff]
  unfold Cons.helloStep
  cases Cons.splitName n with
  | ok r =>
    simp only [Res.ok_bind, Res.ok.injEq, exists_eq', iff_true]
    split
    · split <;> exact ⟨_, rfl⟩
    · exact ⟨_, rfl⟩
  | throw e => simp [Res.bind]
  | ub u => simp [Res.bind]
  | hang => simp [Res.bind]

/-- C35, exact for the hello Data of a consumer: the handler completes (no exception, nothing undefined) if and
only if the content is proper. -/
theorem c35_hello_exact (cfg : CCfg) (s : Cons) (hf : s.helloFetcher = some true) (buf : Bytes) :
    (∃ s', Cons.step cfg s (.helloComplete buf [] []) = .ok s') ↔ Proper buf := by
  rw [proper_iff]
  simp only [Cons.step, hf, if_true]
  unfold Cons.onHelloData
  simp only [foldRes, Res.bind_eq_ok]
  constructor
  · rintro ⟨s', st, h1, r, h2, _⟩
    exact ⟨st, h1, (foldRes_total_iff (helloStep_iff _) _ _).mp ⟨r, h2⟩⟩
  · rintro ⟨st, h1, h2⟩
    obtain ⟨r, h3⟩ := (foldRes_total_iff (helloStep_iff s.subs) st.content (s.prefixes, [], [])).mpr h2
    cases hr : r.2.1.isEmpty
    · exact ⟨_, st, h1, r, h3, _, rfl, by rw [if_neg (by simp [hr])]⟩
    · exact ⟨_, st, h1, r, h3, _, rfl, by rw [if_pos hr]⟩

theorem Cons.bloom_components {cfg : CCfg} {s : Cons} (hs : Cons.Reach cfg s) {bf0 : Bloom} (hb : freshFilter cfg = .ok bf0)
    (hz : SizedBf bf0) {t : Nat} (ht : cfg.libm.toThousandths cfg.bfFpp = some t) :
    ∃ cs, s.bloom.toComponents cfg.libm = .ok cs := by
  obtain ⟨bf1, hb1, hinv⟩ := hs.moment.inv
  unfold freshFilter at hb
  rw [hb] at hb1
  cases hb1
  obtain ⟨ops, k1, _⟩ := hinv.bloom
  obtain ⟨bf', r1, _, r2, _⟩ := runBf_of ops bf0 [] hz (by simp)
  rw [k1] at r1
  cases r1
  have e := r2 []
  simp only [Bloom.mk.injEq] at e
  have hfpp : bf0.fpp = cfg.bfFpp := by
    unfold Bloom.new at hb
    simp only [Res.bind_eq_ok, Res.ok.injEq] at hb
    obtain ⟨kt, _, rfl⟩ := hb
    rfl
  unfold Bloom.toComponents
  rw [← e.2.2.2.2, hfpp, ht]
  exact ⟨_, rfl⟩

/-- C35, exact for the sync Data of a consumer whose options admit sync Interests at all (`hz`, `ht`): the handler
completes if and only if the content is proper. -/
theorem c35_sync_exact (cfg : CCfg) (s : Cons) (hs : Cons.Reach cfg s) (bf0 : Bloom) (hb : freshFilter cfg = .ok bf0)
    (hz : SizedBf bf0) (t : Nat) (ht : cfg.libm.toThousandths cfg.bfFpp = some t) (hf : s.syncFetcher = some true)
    (hd : s.contentType = .blob) (hn : s.syncDataName ≠ []) (buf : Bytes) :
    (∃ s', Cons.step cfg s (.syncComplete buf []) = .ok s') ↔ Proper buf := by
  rw [proper_iff]
  simp only [Cons.step, hf, if_true, hd]
  rw [if_neg (by decide)]
  unfold Cons.onSyncData
  simp only [foldRes, Res.bind_eq_ok]
  constructor
  · rintro ⟨s', st, h1, r, h2, _⟩
    exact ⟨st, h1, (foldRes_total_iff syncStep_iff _ _).mp ⟨r, h2⟩⟩
  · rintro ⟨st, h1, h2⟩
    obtain ⟨r, h3⟩ := (foldRes_total_iff syncStep_iff st.content (s.prefixes, [])).mpr h2
    obtain ⟨cs, h4⟩ := Cons.bloom_components hs hb hz ht
    have hi : s.syncDataName.drop (s.syncDataName.length - 1) ≠ [] := by
      have := List.length_pos_iff.mpr hn
      intro e
      have := congrArg List.length e
      simp only [List.length_drop, List.length_nil] at this
      omega
    have send : ∀ m : Cons, m.iblt = s.syncDataName.drop (s.syncDataName.length - 1) → m.bloom = s.bloom →
        ∃ s', m.sendSyncInterest cfg = .ok s' := by
      intro m e1 e2
      unfold Cons.sendSyncInterest
      rw [if_neg (by rw [e1]; exact hi), e2, h4]
      exact ⟨_, rfl⟩
    cases hr : r.2.isEmpty
    · obtain ⟨s', h5⟩ := send (Cons.emit { s with iblt := s.syncDataName.drop (s.syncDataName.length - 1), prefixes := r.1, syncFetcher := some false, contentType := .blob } (.update r.2)) rfl rfl
      exact ⟨s', st, h1, r, h3, _, by rw [if_neg (by simp [hr])], h5⟩
    · obtain ⟨s', h5⟩ := send { s with iblt := s.syncDataName.drop (s.syncDataName.length - 1), prefixes := r.1, syncFetcher := some false, contentType := .blob } rfl rfl
      exact ⟨s', st, h1, r, h3, _, by rw [if_pos hr], h5⟩

/-- C35 for what producers send: the contents of hello and sync replies are proper. -/
theorem c35_honest_proper (ps : List (Name × Nat)) (h : ∀ e ∈ ps, e.1.Valid ∧ e.2 < 2 ^ 64)
    (hl : (encodeNames (ps.map fun e => e.1.appendNumber e.2)).length < 2 ^ 64) :
    Proper (encodeNames (ps.map fun e => e.1.appendNumber e.2)) := by
  refine ⟨_, (wireDecode_iff.mp (wireDecode_encodeNames _ ?_ hl)).1, ?_⟩
  · intro n hn
    obtain ⟨e, he, rfl⟩ := List.mem_map.mp hn
    exact appendNumber_valid (h e he).1 e.2
  · intro n hn
    obtain ⟨e, he, rfl⟩ := List.mem_map.mp hn
    rw [announced_appendNumber _ _ (h e he).2]
    rfl

/-! Full synchronisation -/

namespace Full

/-- The names on the waiting list end in numbers. -/
def Numbered (s : Full) : Prop := ∀ n w, s.waiting.find n = some w → (announced n).isSome = true

theorem Numbered.of_keys {s s' : Full} (h : Numbered s) (hk : ∀ n w, s'.waiting.find n = some w → ∃ w', s.waiting.find n = some w') :
    Numbered s' := fun n w hw => by
  obtain ⟨w', h'⟩ := hk n w hw
  exact h n w' h'

theorem Passed.numbered {ks : List Name} {s s' : Full} (p : Passed ks s s') (h : Numbered s) : Numbered s' :=
  h.of_keys fun n w hw => by
    by_cases hk : n ∈ ks
    · rcases p.same n hk with h1 | ⟨w0, h0, _⟩
      · rw [h1] at hw; cases hw
      · exact ⟨w0, h0⟩
    · rw [p.other n hk] at hw
      exact ⟨w, hw⟩

theorem step_numbered {cfg : Cfg} {s s' : Full} {op : Op} (hl : Lists cfg s) (hn : Numbered s) (h : step cfg s op = .ok s') :
    Numbered s' := by
  cases step_lists hl h with
  | shrink h1 => exact hn.of_keys fun n w hw => ⟨w, by rw [← h1.waiting]; exact hw⟩
  | time t _ _ _ h1 => subst h1; exact hn
  | interest i hop h1 _ _ =>
    subst hop
    intro n w hw
    by_cases hni : n = i.name
    · subst hni
      cases hf : s.waiting.find i.name with
      | some w0 => exact hn _ _ hf
      | none =>
        simp only [step] at h
        split at h
        · rcases onSyncInterest_cases h with ⟨d, _, rfl⟩ | ⟨_, ⟨d, _, _, rfl⟩ | rfl | ⟨c2, c1, num, ib, df, _, _, hc1, hnum, _⟩⟩
          · rw [show s.waiting.find i.name = some w from hw] at hf; cases hf
          · rw [show s.waiting.find i.name = some w from hw] at hf; cases hf
          · rw [hw] at hf; cases hf
          · rw [(announced_of hc1 hnum).1]; rfl
        · cases h; rw [hw] at hf; cases hf
    · rw [h1.other n hni] at hw
      exact hn n w hw
  | retry s1 _ h1 p => exact p.numbered (hn.of_keys fun n w hw => ⟨w, by rw [← h1.waiting]; exact hw⟩)

theorem reach_numbered {cfg : Cfg} {s : Full} (h : Reach cfg s) : Numbered s := by
  obtain ⟨s0, ops, h1, h2⟩ := h
  have h0 : Lists cfg s0 ∧ Numbered s0 := ⟨(init_lists h1).1, fun n w hw => by rw [(init_lists h1).2.2] at hw; cases hw⟩
  exact (foldRes_inv (P := fun m : Full => Lists cfg m ∧ Numbered m) ops
    (fun _ _ _ _ hP hst => ⟨(step_lists hP.1 hst).lists hP.1, step_numbered hP.1 hP.2 hst⟩) h0 h2).2

theorem _root_.PSync.Base.eraseName_noThrow (b : Base) (n : Name) : (b.eraseName n).NoThrow := by
  unfold Base.eraseName
  split
  · exact Res.NoThrow.bind (ibltUpdate_noThrow _ _ _) fun _ _ => .ok _
  · exact .ok _

theorem _root_.PSync.Base.updateSeqNo_noThrow (b : Base) (p : Name) (q : Nat) : (b.updateSeqNo p q).NoThrow := by
  unfold Base.updateSeqNo
  split
  · exact .ok _
  · split
    · exact .ok _
    · refine Res.NoThrow.bind ?_ fun _ _ => Res.NoThrow.bind (ibltUpdate_noThrow _ _ _) fun _ _ => .ok _
      split
      · exact Base.eraseName_noThrow _ _
      · exact .ok _

theorem merge_noThrow {face : Nat} : ∀ (ns : List Name) (b : Base) (acc : List MissingDataInfo),
    (∀ n ∈ ns, (announced n).isSome = true) → (merge face b ns acc).NoThrow
  | [], b, acc, _ => .ok _
  | n :: ns, b, acc, h => by
    obtain ⟨⟨p, q⟩, hq⟩ := Option.isSome_iff_exists.mp (h n (by simp))
    obtain ⟨c, e1, e2, _⟩ := of_announced hq
    have ih := fun b acc => merge_noThrow (face := face) ns b acc (fun m hm => h m (List.mem_cons_of_mem _ hm))
    unfold merge
    rw [e1, Res.ok_bind, e2, Res.ok_bind]
    split
    · exact Res.NoThrow.bind (Base.updateSeqNo_noThrow _ _ _) fun _ _ => ih _ _
    · exact ih _ _

theorem processOne_noThrow {cfg : Cfg} (hwf : cfg.WF) {s : Full} (hn : Numbered s) (n : Name) : (processOne cfg s n).NoThrow := by
  unfold processOne
  cases hw : s.waiting.find n with
  | none => exact .ok _
  | some w =>
    simp only
    split
    · exact .ok _
    · obtain ⟨⟨p, q⟩, hq⟩ := Option.isSome_iff_exists.mp (hn n w hw)
      refine Res.NoThrow.bind (onSyncInterest_noThrow hwf _ _ _ ?_ ?_) fun s1 _ => ?_
      · rintro e
        simp only at e
        rw [e] at hq
        simp [announced] at hq
      · intro _
        unfold announced at hq
        simp only
        split at hq
        · cases hq
        · rename_i c hc
          have hne : n ≠ [] := by rintro rfl; simp at hc
          rw [List.getLast?_eq_some_getLast hne, Option.some.injEq] at hc
          rw [hc]
          cases hr : readNni c.value with
          | none => rw [hr] at hq; cases hq
          | some x => rfl
      · split
        · exact .ok _
        · split <;> exact .ok _

theorem processOne_numbered {cfg : Cfg} {s s' : Full} {n : Name} (hn : Numbered s) (h : processOne cfg s n = .ok s') :
    Numbered s' := by
  unfold processOne at h
  cases hw : s.waiting.find n with
  | none => simp only [hw, Res.ok.injEq] at h; subst h; exact hn
  | some w =>
    simp only [hw] at h
    have er : ∀ {m : Full}, Numbered m → Numbered { m with waiting := m.waiting.erase n } := fun hm =>
      hm.of_keys fun k w hk => by
        rw [NMap.find_erase] at hk
        split at hk
        · cases hk
        · exact ⟨w, hk⟩
    split at h
    · cases h; exact er hn
    · simp only [Res.bind_eq_ok] at h
      obtain ⟨s1, h1, h2⟩ := h
      have h3 : Numbered s1 := by
        refine hn.of_keys fun k w' hk => ?_
        have hh := onSyncInterest_handled h1
        by_cases hkn : k = n
        · exact ⟨w, by rw [hkn]; exact hw⟩
        · rw [hh.other k hkn] at hk
          rw [show (s.waiting.set n { w with numTries := w.numTries + 1 }).find k = _ from NMap.find_set _ _ _ _,
            if_neg (fun e => hkn e.symm)] at hk
          exact ⟨_, hk⟩
      split at h2
      · cases h2; exact h3
      · split at h2
        · cases h2; exact er h3
        · cases h2; exact h3

theorem processWaiting_noThrow {cfg : Cfg} (hwf : cfg.WF) {s : Full} (hn : Numbered s) : (processWaiting cfg s).NoThrow :=
  foldRes_noThrow (P := Numbered) _ (fun _ hm x _ => processOne_noThrow hwf hm x)
    (fun _ _ _ _ hm h => processOne_numbered hm h) s hn

theorem call_noThrow {cfg : Cfg} (hwf : cfg.WF) {s : Full} (hl : Lists cfg s) (c : Call) : (call cfg s c).NoThrow := by
  cases c with
  | addUserNode p => exact .ok _
  | removeUserNode p =>
    refine Res.NoThrow.bind ?_ fun _ _ => .ok _
    unfold Base.removeUserNode
    split
    · exact .ok _
    · exact Base.eraseName_noThrow _ _
  | publishName p q =>
    simp only [call]
    unfold publishName
    split
    · exact .ok _
    · refine Res.NoThrow.bind (Base.updateSeqNo_noThrow _ _ _) fun b _ => ?_
      unfold satisfyPending
      refine foldRes_noThrow (P := fun _ => True) _ (fun m _ e he => ?_) (fun _ _ _ _ _ _ => trivial) _ trivial
      unfold satisfyOne
      refine Res.NoThrow.bind (diff_noThrow _ _ _) fun d _ => Res.NoThrow.bind (.of_ok (sendSyncData_total hwf ?_ _ _)) fun _ _ => .ok _
      intro h0
      have := hl.plen e.1 e.2 (NMap.find_of_mem hl.psorted he)
      rw [h0] at this
      simp at this

theorem calls_noThrow {cfg : Cfg} (hwf : cfg.WF) {s : Full} (hl : Lists cfg s) (cs : List Call) :
    (foldRes (call cfg) s cs).NoThrow :=
  foldRes_noThrow (P := Lists cfg) _ (fun _ hm x _ => call_noThrow hwf hm x)
    (fun _ _ _ _ hm h => (call_shrunk h).lists hm) s hl

end Full

/-- C35, partial, for full sync: Data that cannot be decompressed or decoded is dropped, and Data all of whose names
end in a number raises no exception, whatever the application does in the update callback and whatever
Interests are waiting.  (Missing: names without a number at the end, `c35_false`.) -/
theorem c35_full_partial (cfg : Cfg) (hwf : cfg.WF) (s : Full) (hs : Full.Reach cfg s) (buf : Bytes) (acts : List Full.Call)
    (hp : ∀ n ∈ namesIn cfg buf, (announced n).isSome = true) (e : Err) :
    Full.step cfg s (.complete buf acts) ≠ .throw e := by
  have hl := Full.reach_lists hs
  have hn := Full.reach_numbered hs
  revert e
  change (Full.step cfg s (.complete buf acts)).NoThrow
  simp only [Full.step]
  cases s.fetcher with
  | none => exact .ok _
  | some f =>
    simp only
    split
    · unfold Full.onSyncData
      rw [Full.namesIn_eq] at hp
      cases hd : Full.decodeReply cfg buf with
      | none => exact .ok _
      | some ns =>
        rw [hd] at hp
        refine Res.NoThrow.bind (Full.merge_noThrow _ _ _ hp) fun r _ => ?_
        simp only
        have hl1 : Full.Shrunk s ((s.stopFetcher).deletePending f.name) :=
          (Full.Shrunk.congr (s2 := s.stopFetcher) (Full.Shrunk.refl s) rfl rfl rfl).delete _
        have hl2 : Full.Shrunk s (Full.emit { (s.stopFetcher).deletePending f.name with base := r.2 } (.update r.1)) :=
          hl1.congr rfl rfl rfl
        split
        · exact .ok _
        · refine Res.NoThrow.bind (Full.calls_noThrow hwf (hl2.lists hl) _) fun s2 h2 => ?_
          have h3 := (Full.Shrunk.trans hl2 (Full.calls_shrunk h2)).waiting
          refine Full.processWaiting_noThrow hwf (hn.of_keys fun k w hk => ⟨w, ?_⟩)
          rw [← h3]
          exact hk
    · exact .ok _

/-- C35, partial, for full sync: when moreover nobody waits for an answer and the node has made fewer than 2^30
updates, the handler completes: nothing undefined happens either. -/
theorem c35_full_total (cfg : Cfg) (he : 0 < cfg.expected) (s : Full) (hs : Full.Reach cfg s) (buf : Bytes)
    (hp : ∀ n ∈ namesIn cfg buf, (announced n).isSome = true)
    (hh : s.base.hist.length + (namesIn cfg buf).length < 1073741823) (hw : s.waiting = []) :
    ∃ s', Full.step cfg s (.complete buf []) = .ok s' := by
  have hb := (Full.reach_steps hs).small he (Base.small_new cfg)
  have hm : ∀ (ns : List Name) (face : Nat) (b : Base) (acc : List MissingDataInfo), b.Small cfg.expected →
      b.hist.length + ns.length < 1073741823 → (∀ n ∈ ns, (announced n).isSome = true) → ∃ r, Full.merge face b ns acc = .ok r := by
    intro ns face
    induction ns with
    | nil => intro b acc _ _ _; exact ⟨_, rfl⟩
    | cons n ns ih =>
      intro b acc hb hh hp
      obtain ⟨⟨p, q⟩, hq⟩ := Option.isSome_iff_exists.mp (hp n (by simp))
      obtain ⟨c, e1, e2, _⟩ := of_announced hq
      simp only [List.length_cons] at hh
      have hp' : ∀ m ∈ ns, (announced m).isSome = true := fun m hm => hp m (List.mem_cons_of_mem _ hm)
      unfold Full.merge
      rw [e1, Res.ok_bind, e2, Res.ok_bind]
      split
      · have hsb : (b.index (n.dropLast 1)).2.Small cfg.expected ∧ (b.index (n.dropLast 1)).2.hist = b.hist := by
          unfold Base.index
          split
          · exact ⟨hb, rfl⟩
          · exact ⟨hb, rfl⟩
        obtain ⟨b1, h1⟩ := Base.update_total he hsb.1 (by rw [hsb.2]; omega) (n.dropLast 1) q
        have hs1 : b1.Small cfg.expected := Base.Step.small (R := fun _ => True) he (.update _ q (toNumber_lt e2) h1) hsb.1
        have hl1 : b1.hist.length ≤ b.hist.length + 1 := by
          rcases Base.updateSeqNo_ok h1 with ⟨rfl, _⟩ | ⟨_, _, _, _, _, _, _, _, _, _, rfl⟩
          · rw [hsb.2]; omega
          · simp [hsb.2]
        obtain ⟨r, hr⟩ := ih b1 _ hs1 (by omega) hp'
        exact ⟨r, by simp only [h1, Res.ok_bind]; exact hr⟩
      · exact ih b acc hb (by omega) hp'
  simp only [Full.step]
  cases s.fetcher with
  | none => exact ⟨_, rfl⟩
  | some f =>
    simp only
    split
    · unfold Full.onSyncData
      rw [Full.namesIn_eq] at hp hh
      cases hd : Full.decodeReply cfg buf with
      | none => exact ⟨_, rfl⟩
      | some ns =>
        rw [hd] at hp hh
        obtain ⟨r, hr⟩ := hm ns ((s.stopFetcher).deletePending f.name).incomingFace s.base [] hb hh hp
        simp only
        rw [show ((s.stopFetcher).deletePending f.name).base = s.base from rfl, hr, Res.ok_bind]
        split
        · exact ⟨_, rfl⟩
        · simp only [foldRes, Res.ok_bind]
          unfold Full.processWaiting
          show ∃ s', foldRes (Full.processOne cfg) _ (NMap.keys s.waiting) = .ok s'
          rw [hw]
          exact ⟨_, rfl⟩
    · exact ⟨_, rfl⟩

/-- The full claim C35: no Data content makes a reachable node raise an exception or access memory out of
bounds. -/
def Spec.DataHarmless : Prop :=
  (∀ cfg : Cfg, cfg.WF → ∀ s, Full.Reach cfg s → ∀ buf e,
    Full.step cfg s (.complete buf []) ≠ .throw e ∧ Full.step cfg s (.complete buf []) ≠ .ub .outOfBounds) ∧
  (∀ (cfg : CCfg) s, Cons.Reach cfg s → ∀ buf e,
    Cons.step cfg s (.helloComplete buf [] []) ≠ .throw e ∧ Cons.step cfg s (.helloComplete buf [] []) ≠ .ub .outOfBounds ∧
    Cons.step cfg s (.syncComplete buf []) ≠ .throw e ∧ Cons.step cfg s (.syncComplete buf []) ≠ .ub .outOfBounds)

/-- Kinds of failure, for the witnesses. -/
def failure {α : Type} : Res α → Option (Err ⊕ UB)
  | .throw e => some (.inl e)
  | .ub u => some (.inr u)
  | _ => none

/-- C35 is false: contents that make the handlers of a full producer and of a consumer raise an exception or read
out of bounds: a name whose last component has three bytes, an empty name, and (consumer only) a content
that is no PSyncContent block. -/
theorem c35_witnesses :
    (∃ s, Full.init sampleCfg = .ok s ∧
      (failure (Full.step sampleCfg s (.complete (encodeNames [[⟨8, [1, 2, 3]⟩]]) [])),
       failure (Full.step sampleCfg s (.complete (encodeNames [[]]) []))) = (some (.inl .tlv), some (.inr .outOfBounds))) ∧
    (∃ s, consRun [.call .sendHello] = .ok s ∧
      (failure (Cons.step sampleCCfg s (.helloComplete (encodeNames [[⟨8, [1, 2, 3]⟩]]) [] [])),
       failure (Cons.step sampleCCfg s (.helloComplete (encodeNames [[]]) [] [])),
       failure (Cons.step sampleCCfg s (.helloComplete [] [] []))) = (some (.inl .tlv), some (.inr .outOfBounds), some (.inl .tlv))) ∧
    (∃ s, consRun (subscribed ++ [.syncSegment (ibfData (nameOf [115]) .blob [])]) = .ok s ∧
      (failure (Cons.step sampleCCfg s (.syncComplete (encodeNames [[⟨8, [1, 2, 3]⟩]]) [])),
       failure (Cons.step sampleCCfg s (.syncComplete (encodeNames [[]]) [])),
       failure (Cons.step sampleCCfg s (.syncComplete [] []))) = (some (.inl .tlv), some (.inr .outOfBounds), some (.inl .tlv))) :=
  ⟨Res.of_get? (by decide +kernel), Res.of_get? (by decide +kernel), Res.of_get? (by decide +kernel)⟩

theorem c35_false : ¬ Spec.DataHarmless := by
  intro h
  obtain ⟨⟨s, h1, h2⟩, _⟩ := c35_witnesses
  simp only [Prod.mk.injEq] at h2
  have h3 := (h.1 sampleCfg sampleCfg_wf s ⟨s, [], h1, rfl⟩ (encodeNames [[⟨8, [1, 2, 3]⟩]]) .tlv).1
  have h2 := h2.1
  revert h2 h3
  cases Full.step sampleCfg s (.complete (encodeNames [[⟨8, [1, 2, 3]⟩]]) []) <;> simp [failure]

/-- Non-vacuity for C35: a full producer survives garbage, truncated and proper Data. -/
example : ((Full.init sampleCfg).get?.bind fun s =>
    (Full.step sampleCfg s (.complete [1, 2, 3] [])).get?.bind fun s1 =>
    (Full.step sampleCfg s (.complete ((encodeNames [pA.appendNumber 3]).dropLast) [])).get?.bind fun s2 =>
    (Full.step sampleCfg s (.complete (encodeNames [pA.appendNumber 3]) [])).get?.map fun s3 =>
      (s1.base.getSeqNo pA, s2.base.getSeqNo pA, s3.base.getSeqNo pA)) = some (none, none, some 3) := by decide +kernel

end PSync
