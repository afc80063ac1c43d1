import Verif.Props.Snapshot
import Verif.Props.Once
import Verif.Props.Rest
/-!
C121: one call of an update callback mentions each prefix once.
-/
namespace PSync
open Spec

/-- Among the updates no prefix occurs twice. -/
def Spec.MentionsOnce (us : List MissingDataInfo) : Prop := (us.map (fun u => u.pfx)).Nodup

/-- If a prefix is listed more than once, the numbers do not increase. -/
def Spec.Falling (content : List Name) : Prop :=
  (content.filterMap announced).Pairwise (fun a b => a.1 = b.1 → b.2 ≤ a.2)

/-! ### Consumer -/

namespace Cons

/-- Nothing is mentioned twice yet, and the last number mentioned is the current one. -/
structure Tidy (T : Name → Nat → Prop) (ps : NMap Nat) (us : List MissingDataInfo) : Prop where
  once : MentionsOnce us
  last : ∀ u ∈ us, ps.find u.pfx = some u.highSeq ∧ T u.pfx u.highSeq

theorem Tidy.more {T : Name → Nat → Prop} {ps : NMap Nat} {us : List MissingDataInfo} (h : Tidy T ps us) {p : Name} {lo q : Nat}
    (hT : T p q) (hnew : ∀ u ∈ us, u.pfx ≠ p) : Tidy T (ps.set p q) (us ++ [⟨p, lo, q, 0⟩]) := by
  refine ⟨?_, fun u hu => ?_⟩
  · unfold MentionsOnce
    rw [List.map_append, List.nodup_append]
    refine ⟨h.once, by simp, ?_⟩
    intro a ha b hb
    simp only [List.map_cons, List.map_nil, List.mem_singleton] at hb
    subst hb
    obtain ⟨u, hu, rfl⟩ := List.mem_map.mp ha
    exact hnew u hu
  · rcases List.mem_append.mp hu with hu | hu
    · rw [NMap.find_set, if_neg (fun e => hnew u hu e.symm)]
      exact h.last u hu
    · cases List.mem_singleton.mp hu
      exact ⟨by rw [NMap.find_set, if_pos rfl], hT⟩

theorem tidy_sync {T : Name → Nat → Prop} (hfun : ∀ p x y, T p x → T p y → x = y) {l : List Name} {ps : NMap Nat}
    {r : NMap Nat × List MissingDataInfo} (hl : ∀ n ∈ l, ∀ p q, announced n = some (p, q) → T p q)
    (h : foldRes syncStep (ps, []) l = .ok r) : Tidy T r.1 r.2 := by
  refine foldRes_inv (P := fun r : NMap Nat × List MissingDataInfo => Tidy T r.1 r.2) l ?_ (s := (ps, []))
    ⟨by simp [MentionsOnce], fun u hu => by cases hu⟩ h
  intro b n b' hn hi hst
  obtain ⟨p, q, ha, _, hor⟩ := syncStep_ok hst
  have ht := hl n hn p q ha
  rcases hor with ⟨h1, rfl⟩ | ⟨c, h1, h2, rfl⟩ | ⟨c, _, _, rfl⟩
  · exact hi.more ht (fun u hu e => by have := (hi.last u hu).1; rw [e, h1] at this; cases this)
  · refine hi.more ht (fun u hu e => ?_)
    obtain ⟨h3, h4⟩ := hi.last u hu
    rw [e, h1, Option.some.injEq] at h3
    rw [e] at h4
    have := hfun p _ _ h4 ht
    omega
  · exact hi

theorem tidy_hello {T : Name → Nat → Prop} (hfun : ∀ p x y, T p x → T p y → x = y) {subs : NMap Unit} {l : List Name} {ps : NMap Nat}
    {r : NMap Nat × List MissingDataInfo × NMap Nat} (hl : ∀ n ∈ l, ∀ p q, announced n = some (p, q) → T p q)
    (hk : ∀ p, (subs.find p).isSome → (ps.find p).isSome) (h : foldRes (helloStep subs) (ps, [], []) l = .ok r) : Tidy T r.1 r.2.1 := by
  have := foldRes_inv (P := fun r : NMap Nat × List MissingDataInfo × NMap Nat =>
    (∀ p, (subs.find p).isSome → (r.1.find p).isSome) ∧ Tidy T r.1 r.2.1) l ?_ (s := (ps, [], []))
    ⟨hk, by simp [MentionsOnce], fun u hu => by cases hu⟩ h
  · exact this.2
  rintro b n b' hn ⟨i1, hi⟩ hst
  obtain ⟨p, q, ha, _, _, hor⟩ := helloStep_ok i1 hst
  have ht := hl n hn p q ha
  rcases hor with ⟨c, _, h1, h2, j4, j5⟩ | ⟨_, j4, j5⟩
  · rw [j4, j5]
    refine ⟨fun p' hp' => find_set_isSome (i1 p' hp'), hi.more ht (fun u hu e => ?_)⟩
    obtain ⟨h3, h4⟩ := hi.last u hu
    rw [e, h1, Option.some.injEq] at h3
    rw [e] at h4
    have := hfun p _ _ h4 ht
    omega
  · rw [j4, j5]; exact ⟨i1, hi⟩

end Cons

section
variable {pc : Cfg} {cc : CCfg} {P : Nat → Part} {C : Nat → Cons} {what : Nat → PSEv} {len : Nat}

theorem Spec.PSRun.mentions (h : PSRun pc cc P C what len) (hm : Matching pc cc) (hr : Regular pc P what len) :
    ∀ n ≤ len, Cons.Gave (fun _ => True) MentionsOnce (C n) := by
  intro n
  induction n with
  | zero =>
    intro _
    have hi := h.initC
    unfold Cons.init at hi
    simp only [Res.bind_eq_ok, Res.ok.injEq] at hi
    obtain ⟨bf, _, e⟩ := hi
    rw [← e]
    exact ⟨fun _ _ => trivial, fun us hu => by simp at hu⟩
  | succ n ih =>
    intro hn
    have ih := ih (by omega)
    cases h.step n (by omega) with
    | prod op _ _ hc => rw [hc]; exact ih
    | cons op hw hs hp hsync hhello =>
      have hv := h.earlier (n := n) (by omega)
      have hrn := Spec.Regular.earlier h hr (n := n) (by omega)
      have ann : ∀ {b : Base} {content : List Name}, Tables P n b →
          (∀ n ∈ content, ∃ p x, b.getSeqNo p = some x ∧ n = Name.appendNumber p x) →
          ∀ m ∈ content, ∀ p q, announced m = some (p, q) → b.getSeqNo p = some q := by
        intro b content hb hc m hmem p q ha
        obtain ⟨p', x, h1, rfl⟩ := hc m hmem
        rw [announced_appendNumber p' x (((hv.comparable hrn).inv b hb).lt p' x h1)] at ha
        cases ha
        exact h1
      have hfun : ∀ b : Base, ∀ p x y, b.getSeqNo p = some x → b.getSeqNo p = some y → x = y :=
        fun b p x y h1 h2 => Option.some.inj (h1.symm.trans h2)
      obtain ⟨_, _, hinv⟩ := (hv.momentC (le_refl _)).inv
      refine ih.step (fun buf a1 a2 e hact st hst r hfold => ⟨trivial, ?_⟩) (fun buf a e hact hk st hst r hfold => ?_) (fun p q cb hmem => by simp [MentionsOnce]) hs
      · obtain ⟨b, c, hb, _, _, rfl, hl, _⟩ := hv.hello_delivered hm hrn (le_refl _) hact (hhello buf a1 a2 e)
        have hc := fun n => helloContent_spec ((hv.comparable hrn).inv b hb) n
        rw [hv.decoded hrn hb (fun n hn => (hc n).mp hn) hl hst] at hfold
        exact (Cons.tidy_hello (hfun b) (ann hb (fun n hn => (hc n).mp hn)) hinv.sub hfold).once
      · have hd := hsync buf a e
        obtain ⟨m, hmn, name, segs, h1, h2, h3, h4, h5⟩ := id hd
        obtain ⟨bf, b0, hf, _⟩ := hv.last_fields hm hrn (le_refl _) h3
        obtain ⟨b, c, content, hb, _, _, rfl, hl, hnames, _⟩ := hv.sync_delivered hm hrn (le_refl _) hact hk hd h3 hf
        rw [hv.decoded hrn hb hnames hl hst] at hfold
        exact (Cons.tidy_sync (hfun b) (ann hb hnames) hfold).once

/-- C121 for a consumer, partial: no call of the update callback mentions a prefix twice.
(Missing: forged replies, for which the claim is false, `c121_false`; see C45 for the assumptions on a run.) -/
theorem c121_consumer_partial (h : PSRun pc cc P C what len) (hm : Matching pc cc) (hr : Regular pc P what len) (n : Nat) (hn : n ≤ len)
    (us : List MissingDataInfo) (hl : Out.update us ∈ (C n).log) : MentionsOnce us :=
  (h.mentions hm hr n hn).upd us hl

end

/-! ### FullProducer -/

/-- Each number that is merged is larger than the one before. -/
theorem MergeRel.rising {b b' : Base} {us : List MissingDataInfo} (h : MergeRel b us b') :
    (∀ u ∈ us, ∀ x, b.prefixes.find u.pfx = some x → x < u.highSeq) ∧ us.Pairwise (fun u v => u.pfx = v.pfx → u.highSeq < v.highSeq) := by
  induction h with
  | nil b => exact ⟨fun u hu => (by cases hu), List.Pairwise.nil⟩
  | newer p q face hq hnew h1 _ ih =>
    rename_i b b1 b2 us _
    have hf := Full.merge_step_find h1
    refine ⟨fun u hu x hx => ?_, List.pairwise_cons.mpr ⟨fun v hv e => ?_, ih.2⟩⟩
    · rcases List.mem_cons.mp hu with rfl | hu
      · unfold Full.isNewer at hnew
        simp only at hx
        rw [hx] at hnew
        simpa using hnew
      · have := ih.1 u hu
        rw [hf] at this
        split at this
        · rename_i he
          rw [hx] at this
          have := this _ rfl
          simp only [Option.getD_some] at this
          omega
        · exact this x hx
    · simp only at e
      have := ih.1 v hv
      rw [hf, if_pos e] at this
      have := this _ rfl
      simp only
      omega

theorem Full.merge_sublist {face : Nat} (ns : List Name) : ∀ {b : Base} {acc : List MissingDataInfo}
    {r : List MissingDataInfo × Base}, merge face b ns acc = .ok r → ∃ us, r.1 = acc ++ us ∧
      (us.map (fun u => (u.pfx, u.highSeq))).Sublist (ns.filterMap announced) := by
  induction ns with
  | nil => intro b acc r h; simp only [merge, Res.ok.injEq] at h; subst h; exact ⟨[], by simp, by simp⟩
  | cons n ns ih =>
    intro b acc r h
    unfold merge at h
    simp only [Res.bind_eq_ok] at h
    obtain ⟨c, hc, q, hq, h⟩ := h
    have ha := (announced_of hc hq).1
    rw [List.filterMap_cons_some ha]
    split at h
    · simp only [Res.bind_eq_ok] at h
      obtain ⟨b2, h2, h3⟩ := h
      obtain ⟨us, h4, h5⟩ := ih h3
      refine ⟨_, by rw [h4, List.append_assoc], ?_⟩
      simp only [List.cons_append, List.nil_append, List.map_cons]
      exact h5.cons_cons _
    · obtain ⟨us, h4, h5⟩ := ih h
      exact ⟨us, h4, h5.cons _⟩

theorem Full.merge_mentions {face : Nat} {ns : List Name} {b : Base} {r : List MissingDataInfo × Base} (h : merge face b ns [] = .ok r)
    (hf : Falling ns) : MentionsOnce r.1 := by
  obtain ⟨us, h1, hm, _⟩ := merge_rel _ h
  obtain ⟨us', h2, hsub⟩ := merge_sublist _ h
  rw [List.nil_append] at h1 h2
  rw [← h2] at hsub
  rw [← h1] at hm
  have p1 := hm.rising.2
  have p2 : r.1.Pairwise (fun u v => u.pfx = v.pfx → v.highSeq ≤ u.highSeq) := List.pairwise_map.mp (List.Pairwise.sublist hsub hf)
  unfold MentionsOnce List.Nodup
  rw [List.pairwise_map]
  refine (p1.and p2).imp ?_
  rintro u v ⟨h1, h2⟩ e
  have := h1 e
  have := h2 e
  omega

/-- Without a merge no update is reported. -/
theorem Micros.unreported {ρ : Rules} {v v' : View} (h : Micros ρ v v') (hρ : ∀ us, ¬ ρ.merge us) {us : List MissingDataInfo}
    (hu : Out.update us ∈ v'.log) : Out.update us ∈ v.log := by
  induction h with
  | refl => exact hu
  | tail _ h ih =>
    apply ih
    cases h with
    | merge us b' hm _ _ => exact absurd hm (hρ us)
    | interest n lt _ => simpa using hu
    | stored n d _ => simpa using hu
    | nack d _ => simpa using hu
    | data now iname dname buf fr r _ _ _ => simpa using hu
    | _ => exact hu

theorem Full.step_mentions {cfg : Cfg} {s s' : Full} (hs : s.base.Inv) {op : Op} (h : step cfg s op = .ok s')
    (hf : ∀ buf acts, op = .complete buf acts → Falling (namesIn cfg buf)) (hm : ∀ us, Out.update us ∈ s.log → MentionsOnce us) :
    ∀ us, Out.update us ∈ s'.log → MentionsOnce us := by
  intro us hu
  by_cases hc : ∃ buf acts, op = .complete buf acts
  · obtain ⟨buf, acts, rfl⟩ := hc
    simp only [step] at h
    split at h
    · split at h
      · rcases onSyncData_cases (s := s.stopFetcher) hs h with ⟨_, rfl⟩ | ⟨ns, r, h1, h2, hinv, ⟨_, _, rfl⟩ | ⟨_, s1, h3, hinv1, _, h4⟩⟩
        · exact hm us hu
        · exact hm us hu
        · have m3 := (processWaiting_micro (R := fun _ => False) (L := fun _ _ => False) (M := fun _ => False) (s := { s1 with
            sched := some (s1.now + cfg.jitter s1.draws, .renew), draws := s1.draws + 1, waitOut := false }) hinv1 h4).unreported
              (fun _ hx => hx) hu
          have m2 := (calls_micro (M := fun _ => False) (s := ({ s.stopFetcher.deletePending _ with base := r.2 } : Full).emit (.update r.1))
            hinv h3).unreported (fun _ hx => hx) (show Out.update us ∈ s1.view.log from m3)
          have m1 : Out.update us ∈ s.log ++ [.update r.1] := m2
          rcases List.mem_append.mp m1 with m1 | m1
          · exact hm us m1
          · cases List.mem_singleton.mp m1
            have := hf buf acts rfl
            rw [namesIn_eq, h1] at this
            exact merge_mentions h2 this
      · cases h; exact hm us hu
    · cases h; exact hm us hu
  · exact hm us ((step_micro hs h).unreported (fun us ⟨buf, acts, e, _⟩ => hc ⟨buf, acts, e⟩) hu)

theorem Full.init_mentions {cfg : Cfg} {s0 : Full} (h0 : Full.init cfg = .ok s0) : ∀ us, Out.update us ∈ s0.log → MentionsOnce us := by
  intro us hx
  have h1 : Micros (Full.rules cfg Full.knownP (fun _ => False) (fun _ _ => False) (fun _ => False))
      ⟨Base.new cfg, SegPub.empty, [], [], [], 0⟩ s0.view :=
    Full.sendSyncInterest_micro (cfg := cfg)
      (ρ := Full.rules cfg Full.knownP (fun _ => False) (fun _ _ => False) (fun _ => False)) (fun b n hn => ⟨hn, rfl⟩) h0
  have := h1.unreported (fun _ hx => hx) hx
  simp at this

/-- C121 for a FullProducer, partial: if no reply that it receives lists a prefix a second time with a larger number, then no call of the
update callback mentions a prefix twice.  No FullProducer sends other replies (C115, `c121_replies`).
(Missing: other, forged, replies, for which the claim is false, `c121_false`.) -/
theorem c121_full_partial (cfg : Cfg) (s0 s : Full) (ops : List Full.Op) (h0 : Full.init cfg = .ok s0) (h : Full.run cfg s0 ops = .ok s)
    (hf : ∀ buf acts, Full.Op.complete buf acts ∈ ops → Falling (namesIn cfg buf)) (us : List MissingDataInfo) (hu : Out.update us ∈ s.log) :
    MentionsOnce us := by
  have hi0 : s0.base.Inv := Full.reach_inv ⟨s0, [], h0, rfl⟩
  have := foldRes_inv (P := fun s : Full => s.base.Inv ∧ ∀ us, Out.update us ∈ s.log → MentionsOnce us) ops
    (fun a op b hop ⟨i1, i2⟩ hst => ⟨(Full.step_steps hst).inv i1, Full.step_mentions i1 hst (fun buf acts e => hf buf acts (e ▸ hop)) i2⟩)
    ⟨hi0, Full.init_mentions h0⟩ h
  exact this.2 us hu

/-- What C115 says of the replies of a FullProducer is what C121 asks of the replies it receives. -/
theorem c121_replies (made : List (Name × Nat)) (content : List Name) (hn : ∀ n ∈ content, ∃ p x, x < 2 ^ 64 ∧ n = Name.appendNumber p x)
    (h : OnceButLast made content) : Falling content := by
  have key : ∀ l : List Name, (∀ n ∈ l, ∃ p x, x < 2 ^ 64 ∧ n = Name.appendNumber p x) → OncePerPrefix l →
      ∀ a ∈ l.filterMap announced, ∀ b ∈ l.filterMap announced, a.1 = b.1 → a.2 = b.2 := by
    intro l hl ho a ha b hb e
    obtain ⟨n, h1, h2⟩ := List.mem_filterMap.mp ha
    obtain ⟨m, h3, h4⟩ := List.mem_filterMap.mp hb
    obtain ⟨p, x, hx, rfl⟩ := hl n h1
    obtain ⟨p', y, hy, rfl⟩ := hl m h3
    rw [announced_appendNumber p x hx] at h2
    rw [announced_appendNumber p' y hy] at h4
    cases h2
    cases h4
    cases e
    exact ho.2 p x y hx hy h1 h3
  have all : ∀ l : List Name, (∀ n ∈ l, ∃ p x, x < 2 ^ 64 ∧ n = Name.appendNumber p x) → OncePerPrefix l → Falling l := by
    intro l hl ho
    unfold Falling
    exact List.pairwise_of_forall_mem_list fun a ha b hb e => le_of_eq (key l hl ho b hb a ha e.symm)
  rcases h with h | ⟨l, p, x, y, rfl, ho, hy, hxy, hy64, _⟩
  · exact all content hn h
  · have hl := fun n (hm : n ∈ l) => hn n (List.mem_append_left _ hm)
    unfold Falling
    rw [List.filterMap_append, List.filterMap_cons_some (announced_appendNumber p x (lt_trans hxy hy64)), List.filterMap_nil, List.pairwise_append]
    refine ⟨all l hl ho, by simp, fun a ha b hb e => ?_⟩
    cases List.mem_singleton.mp hb
    have := key l hl ho a ha (p, y) (List.mem_filterMap.mpr ⟨_, hy, announced_appendNumber p y hy64⟩) e
    simp only at this ⊢
    omega

section
variable {ι : Type} {cfg : ι → Cfg} {g : Nat → ι → Full} {who : Nat → ι} {what : Nat → Full.Op} {len : Nat}

/-- What is fetched in a group. -/
theorem Spec.GRun.falling (hg : IsGroup cfg) (h : GRun cfg g who what len) (hs : Sane cfg (g len)) {n : Nat} (hn : n < len) {buf : Bytes}
    {acts : List Full.Call} (hop : what n = .complete buf acts) : Falling (namesIn (cfg (who n)) buf) := by
  obtain ⟨m, lt, segs, h1, h2⟩ := (h.step n hn).honest buf acts hop
  have hsn := h.sane hs (n := n) (by omega)
  obtain ⟨j, k, e, h3, _, rfl⟩ := fetched_reply hg hsn (fun i => h.reach (by omega) i) h1 h2
  have he := List.mem_of_getElem? h3
  obtain ⟨content, t, k1, k2, k3, k4, k5⟩ := Full.reach_once (h.reach (n := n) (by omega) j) e he
  have hK := (h.sourced hg hs (n := n) (by omega) j).base.earlier k3 k4
  have henc : Encodable content := by
    refine ⟨fun x hx => ?_, ?_⟩
    · obtain ⟨p, q, rfl, _, hor⟩ := k5 x hx
      have hp : p.Valid := by
        rcases hor with ⟨h4, h5⟩ | h4
        · obtain ⟨j', hj'⟩ := (hK.table p q h4).resolve_left h5
          exact hsn.names j' _ hj'
        · exact hsn.names j _ h4
      exact appendNumber_valid hp q
    · obtain ⟨y, e1, e2⟩ := (hg.wf j).content_lossless (encodeNames content)
      rw [k1, Option.some.injEq] at e1
      subst e1
      exact (hsn.buffers j e he).2 _ e2
  have hsame := (hg.same j (who n)).contentCodec
  have hd : Full.decodeReply (cfg (who n)) e.2.1 = some content :=
    decodeReply_encode (cfg := cfg (who n)) (hsame ▸ (hg.wf j).content_lossless) (hsame ▸ k1) henc
  rw [Full.namesIn_eq, hd]
  exact c121_replies _ _ (fun x hx => by obtain ⟨p, q, h4, h5, _⟩ := k5 x hx; exact ⟨p, q, h5, h4⟩) k2

/-- C121 for a group of FullProducers: no call of the update callback of any node mentions a prefix twice.
(Missing: forged replies, `c121_false`; see C56 for the assumptions on a group.) -/
theorem c121_group_partial (hg : IsGroup cfg) (h : GRun cfg g who what len) (hs : Sane cfg (g len)) (n : Nat) (hn : n ≤ len) (i : ι)
    (us : List MissingDataInfo) (hu : Out.update us ∈ (g n i).log) : MentionsOnce us := by
  induction n generalizing i us with
  | zero => exact Full.init_mentions (h.init i) us hu
  | succ n ih =>
    have hst := h.step n (by omega)
    by_cases hi : i = who n
    · subst hi
      exact Full.step_mentions (Full.reach_inv (h.reach (n := n) (by omega) _)) hst.step
        (fun buf acts e => h.falling hg hs (by omega) e) (fun us hu => ih (by omega) _ us hu) us hu
    · rw [hst.others i hi] at hu
      exact ih (by omega) i us hu

end

/-- The full claim C121 for a FullProducer. -/
def Spec.AlwaysMentionsOnce : Prop :=
  ∀ cfg : Cfg, cfg.WF → ∀ s : Full, Full.Reach cfg s → ∀ us, Out.update us ∈ s.log → MentionsOnce us

/-- C121 is false for forged replies: one that lists /a/1 and then /a/2 makes the FullProducer report /a twice in one call. -/
theorem c121_false : ¬ Spec.AlwaysMentionsOnce := by
  intro h
  have key : ∃ s, (Res.bind (Full.init sampleCfg) fun s => Full.run sampleCfg s
      [.complete (encodeNames [pA.appendNumber 1, pA.appendNumber 2]) []]) = .ok s ∧
      s.log.any (fun o => decide (o = .update [⟨pA, 1, 1, 0⟩, ⟨pA, 2, 2, 0⟩])) = true := Res.of_get? (by decide +kernel)
  obtain ⟨s, h1, h2⟩ := key
  rw [Res.bind_eq_ok] at h1
  obtain ⟨s0, h0, h1⟩ := h1
  rw [List.any_eq_true] at h2
  obtain ⟨o, ho, he⟩ := h2
  rw [decide_eq_true_eq] at he
  subst he
  have := h sampleCfg sampleCfg_wf s ⟨s0, _, h0, h1⟩ _ ho
  simp [MentionsOnce] at this

/-- Non-vacuity for C121: a reply lists /a/5, /b/1 and, as the exception of C115, /a/3; /a and /b are reported in one call, each once. -/
example : (Res.bind (Full.init sampleCfg) fun s => Full.run sampleCfg s
      [.complete (encodeNames [pA.appendNumber 5, pB.appendNumber 1, pA.appendNumber 3]) []]).get?.map
        (fun s => s.log.any (fun o => decide (o = .update [⟨pA, 1, 5, 0⟩, ⟨pB, 1, 1, 0⟩]))) = some true ∧
    Falling (namesIn sampleCfg (encodeNames [pA.appendNumber 5, pB.appendNumber 1, pA.appendNumber 3])) := by
  refine ⟨by decide +kernel, ?_⟩
  have : (namesIn sampleCfg (encodeNames [pA.appendNumber 5, pB.appendNumber 1, pA.appendNumber 3])).filterMap announced =
      [(pA, 5), (pB, 1), (pA, 3)] := by decide +kernel
  unfold Falling
  rw [this]
  decide

set_option maxRecDepth 100000 in
/-- Non-vacuity for C121, consumer: two prefixes are reported in one call. -/
example : ∃ (P : Nat → Part) (C : Nat → Cons) (what : Nat → PSEv),
    PSRun sampleCfg sampleCCfg P C what 10 ∧ Matching sampleCfg sampleCCfg ∧ Regular sampleCfg P what 10 ∧
      Out.update [⟨pA, 1, 1, 0⟩, ⟨pB, 1, 1, 0⟩] ∈ (C 10).log := by
  have hx : ((psrun sampleCfg sampleCCfg bothScript).map fun r =>
      regularB r 10 [(pA, 1), (pB, 1)] &&
      (psat r 10).2.log.any (fun o => decide (o = .update [⟨pA, 1, 1, 0⟩, ⟨pB, 1, 1, 0⟩]))) = some true := by decide +kernel
  obtain ⟨r, hr, hb⟩ := Option.of_map hx
  simp only [Bool.and_eq_true, decide_eq_true_eq, List.any_eq_true] at hb
  obtain ⟨h1, o2, h3, rfl⟩ := hb
  exact ⟨_, _, _, psrun_sound hr, sample_matching, regular_of h1 (by decide) (by decide +kernel), h3⟩

/-- The reply of a node that knows /a/1 and /b/2 to one that knows nothing. -/
def pairReply : Data :=
  ⟨emptyInterest.name ++ [⟨54, [1]⟩, ⟨50, [0]⟩], .blob, encodeNames [pA.appendNumber 1, pB.appendNumber 2], 1000, some ⟨50, [0]⟩⟩

/-- Node 0 publishes /a/1 and /b/2 and answers the Interest of node 1, which receives the reply. -/
def pairEvents : List (GEv 2) :=
  [{ who := 0, what := .call (.addUserNode pA) }, { who := 0, what := .call (.publishName pA (some 1)) },
   { who := 0, what := .call (.addUserNode pB) }, { who := 0, what := .call (.publishName pB (some 2)) },
   { who := 0, what := .recvInterest emptyInterest },
   { who := 1, what := .complete pairReply.content [], name := emptyInterest.name,
     base := emptyInterest.name ++ [⟨54, [1]⟩], segs := [pairReply] }]

theorem pair_run : (grun duoCfg pairEvents).map (fun sts =>
    decide ((gat duoCfg sts 6 0).made = [(pA, 1), (pB, 2)]) && decide ((gat duoCfg sts 6 1).made = []) &&
    decide ((gat duoCfg sts 6 0).replies = [(emptyInterest.name, pairReply.content, 1000)]) &&
    decide ((gat duoCfg sts 6 1).replies = []) &&
    (gat duoCfg sts 6 1).log.any (fun o => decide (o = .update [⟨pA, 1, 1, 0⟩, ⟨pB, 1, 2, 0⟩]))) = some true := by decide +kernel

/-- Non-vacuity for C121, group: node 1 reports both prefixes in one call. -/
example : ∃ (g : Nat → Fin 2 → Full) (who : Nat → Fin 2) (what : Nat → Full.Op), IsGroup duoCfg ∧ GRun duoCfg g who what 6 ∧
    Sane duoCfg (g 6) ∧ Out.update [⟨pA, 1, 1, 0⟩, ⟨pB, 1, 2, 0⟩] ∈ (g 6 1).log := by
  obtain ⟨sts, h1, h2⟩ := Option.of_map pair_run
  simp only [Bool.and_eq_true, decide_eq_true_eq, List.any_eq_true] at h2
  obtain ⟨⟨⟨⟨m0, m1⟩, r0⟩, r1⟩, o, ho, rfl⟩ := h2
  refine ⟨gat duoCfg sts, _, _, duoCfg_group, grun_sound h1 0, ?_, ho⟩
  refine sane_duo ?_ ?_ ?_ ?_ (by rw [r0]; decide) (by rw [r1]; decide)
  · rw [m0]; intro e he
    simp only [List.mem_cons, List.not_mem_nil, or_false] at he
    rcases he with rfl | rfl <;> exact nameOf_valid (by decide)
  · rw [m1]; intro e he; cases he
  · rw [r0]; intro e he; rw [List.mem_singleton.mp he]; decide
  · rw [r1]; intro e he; cases he

end PSync
