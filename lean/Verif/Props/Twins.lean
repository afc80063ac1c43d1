import Verif.Props.Consumer
import Verif.Spec.Twins
/-!
Property C107: consumers with the same subscriptions do the same.
-/
namespace PSync
open Spec

theorem BothDo.bind {α β γ δ : Type} {R : α → β → Prop} {Q : γ → δ → Prop} {x : Res α} {y : Res β} (h : BothDo R x y)
    {f : α → Res γ} {g : β → Res δ} (hf : ∀ a b, R a b → BothDo Q (f a) (g b)) : BothDo Q (Res.bind x f) (Res.bind y g) := by
  cases x <;> cases y <;> simp only [BothDo] at h <;> simp only [Res.bind] <;> first | exact hf _ _ h | exact h

theorem BothDo.same {α γ δ : Type} {Q : γ → δ → Prop} (x : Res α) {f : α → Res γ} {g : α → Res δ} (hf : ∀ a, BothDo Q (f a) (g a)) :
    BothDo Q (Res.bind x f) (Res.bind x g) := by
  cases x with
  | ok a => exact hf a
  | _ => simp only [Res.bind, BothDo]

theorem BothDo.fold {α β γ : Type} {R : α → β → Prop} {f : α → γ → Res α} {g : β → γ → Res β} (xs : List γ)
    (h : ∀ a b x, R a b → BothDo R (f a x) (g b x)) : ∀ {a b}, R a b → BothDo R (foldRes f a xs) (foldRes g b xs) := by
  induction xs with
  | nil => intro a b hab; exact hab
  | cons x xs ih =>
    intro a b hab
    exact BothDo.bind (h a b x hab) (fun a b hab => ih hab)

namespace Cons

/-- Equal but for clocks; what they sent and reported since the logs were `l` and `l'` is the same. -/
structure Twin (l l' : List Out) (s s' : Cons) : Prop where
  iblt : s.iblt = s'.iblt
  helloName : s.helloDataName = s'.helloDataName
  syncName : s.syncDataName = s'.syncDataName
  contentType : s.contentType = s'.contentType
  bloom : s.bloom = s'.bloom
  prefixes : s.prefixes = s'.prefixes
  subs : s.subs = s'.subs
  helloFetch : s.helloFetcher = s'.helloFetcher
  syncFetch : s.syncFetcher = s'.syncFetcher
  log : ∃ ext, s.log = l ++ ext ∧ s'.log = l' ++ ext

variable {l l' : List Out} {cfg : CCfg} {j : Nat → Nat} {g : Nat}

theorem Twin.eq {s s' : Cons} (h : Twin l l' s s') :
    ∃ n ts d lg o, s' = { s with now := n, timers := ts, draws := d, log := lg, orphans := o } := by
  obtain ⟨e1, e2, e3, e4, e5, e6, e7, e8, e9, _⟩ := h
  refine ⟨s'.now, s'.timers, s'.draws, s'.log, s'.orphans, ?_⟩
  cases s'
  simp_all

theorem Twin.more {s s' : Cons} (h : Twin l l' s s') (os : List Out) :
    ∃ ext, s.log ++ os = l ++ ext ∧ s'.log ++ os = l' ++ ext := by
  obtain ⟨ext, h1, h2⟩ := h.log
  exact ⟨ext ++ os, by rw [h1, List.append_assoc], by rw [h2, List.append_assoc]⟩

theorem Twin.emit {s s' : Cons} (h : Twin l l' s s') (o : Out) : Twin l l' (s.emit o) (s'.emit o) :=
  ⟨h.iblt, h.helloName, h.syncName, h.contentType, h.bloom, h.prefixes, h.subs, h.helloFetch, h.syncFetch, h.more [o]⟩

theorem Twin.sendHello {s s' : Cons} (h : Twin l l' s s') :
    Twin l l' (s.sendHelloInterest cfg) (s'.sendHelloInterest { cfg with jitter := j, lag := g }) :=
  ⟨h.iblt, h.helloName, h.syncName, h.contentType, h.bloom, h.prefixes, h.subs, rfl, h.syncFetch, h.more _⟩

theorem Twin.sendSync {s s' : Cons} (h : Twin l l' s s') :
    BothDo (Twin l l') (s.sendSyncInterest cfg) (s'.sendSyncInterest { cfg with jitter := j, lag := g }) := by
  have hlog := h.more
  obtain ⟨n, ts, d, lg, o, rfl⟩ := h.eq
  unfold sendSyncInterest
  simp only
  split
  · rfl
  · refine BothDo.same _ (fun cs => ?_)
    exact ⟨rfl, rfl, rfl, rfl, rfl, rfl, rfl, rfl, rfl, hlog _⟩

theorem Twin.call {s s' : Cons} (h : Twin l l' s s') (c : Call) :
    BothDo (Twin l l') (Cons.call cfg s c) (Cons.call { cfg with jitter := j, lag := g } s' c) := by
  have hlog := h.log
  obtain ⟨n, ts, d, lg, o, rfl⟩ := h.eq
  cases c with
  | addSubscription p q cb =>
    simp only [Cons.call]
    refine BothDo.bind (R := fun r r' => Twin l l' r.2 r'.2) ?_ (fun a b hab => show Twin l l' a.2 b.2 from hab)
    unfold Cons.addSubscription
    simp only
    cases hp : s.prefixes.find p with
    | some x => exact h
    | none =>
      simp only
      refine BothDo.same _ (fun bf => ?_)
      have k : Twin l l' { s with prefixes := s.prefixes.set p (q % U64), subs := s.subs.set p (), bloom := bf }
          { s with now := n, timers := ts, draws := d, log := lg, orphans := o, prefixes := s.prefixes.set p (q % U64), subs := s.subs.set p (), bloom := bf } :=
        ⟨rfl, rfl, rfl, rfl, rfl, rfl, rfl, rfl, rfl, hlog⟩
      simp only [BothDo]
      split
      · exact k.emit _
      · exact k
  | removeSubscription p =>
    simp only [Cons.call]
    refine BothDo.bind (R := fun r r' => Twin l l' r.2 r'.2) ?_ (fun a b hab => show Twin l l' a.2 b.2 from hab)
    unfold Cons.removeSubscription isSubscribed
    split
    · exact h
    · refine BothDo.same _ (fun bf => ?_)
      exact ⟨rfl, rfl, rfl, rfl, rfl, rfl, rfl, rfl, rfl, hlog⟩
  | sendHello => exact h.sendHello
  | sendSync => exact h.sendSync
  | stop => exact ⟨rfl, rfl, rfl, rfl, rfl, rfl, rfl, rfl, rfl, hlog⟩

theorem Twin.calls {s s' : Cons} (h : Twin l l' s s') (cs : List Call) :
    BothDo (Twin l l') (foldRes (Cons.call cfg) s cs) (foldRes (Cons.call { cfg with jitter := j, lag := g }) s' cs) :=
  BothDo.fold cs (fun _ _ c hab => hab.call c) h

theorem Twin.step {s s' : Cons} (h : Twin l l' s s') (op : Op)
    (hf : op = .fire → (takeDue s.now s.timers).map Prod.fst = (takeDue s'.now s'.timers).map Prod.fst) :
    BothDo (Twin l l') (Cons.step cfg s op) (Cons.step { cfg with jitter := j, lag := g } s' op) := by
  have hlog := h.log
  obtain ⟨n0, ts0, d0, lg0, o0, rfl⟩ := h.eq
  cases op with
  | call c => exact h.call c
  | helloSegment d =>
    simp only [Cons.step]
    split
    · simp only [BothDo]
      split
      · exact ⟨rfl, rfl, rfl, rfl, rfl, rfl, rfl, rfl, rfl, hlog⟩
      · exact h
    · exact h
  | helloComplete buf a1 a2 =>
    simp only [Cons.step]
    split
    · simp only [onHelloData]
      refine BothDo.same _ (fun st => BothDo.same _ (fun r => ?_))
      refine BothDo.bind (R := Twin l l') (Twin.calls (Twin.emit ?_ _) a1) (fun t t' ht => ?_)
      · exact ⟨rfl, rfl, rfl, rfl, rfl, rfl, rfl, rfl, rfl, hlog⟩
      · split
        · exact ht
        · exact (ht.emit _).calls a2
    · exact h
  | helloError =>
    simp only [Cons.step]
    split
    · exact ⟨rfl, rfl, rfl, rfl, rfl, rfl, rfl, rfl, rfl, hlog⟩
    · exact h
  | syncSegment d =>
    simp only [Cons.step]
    split
    · have k : Twin l l' (if d.finalBlock.isSome = true then { s with syncDataName := Name.dropLast d.name 2, contentType := d.contentType } else s)
          (if d.finalBlock.isSome = true then { s with now := n0, timers := ts0, draws := d0, log := lg0, orphans := o0, syncDataName := Name.dropLast d.name 2, contentType := d.contentType } else { s with now := n0, timers := ts0, draws := d0, log := lg0, orphans := o0 }) := by
        split
        · exact ⟨rfl, rfl, rfl, rfl, rfl, rfl, rfl, rfl, rfl, hlog⟩
        · exact h
      generalize (if d.finalBlock.isSome = true then { s with syncDataName := Name.dropLast d.name 2, contentType := d.contentType } else s) = t at k
      generalize (if d.finalBlock.isSome = true then { s with now := n0, timers := ts0, draws := d0, log := lg0, orphans := o0, syncDataName := Name.dropLast d.name 2, contentType := d.contentType } else { s with now := n0, timers := ts0, draws := d0, log := lg0, orphans := o0 }) = t' at k
      rw [← k.contentType]
      simp only [BothDo]
      split
      · exact k.sendHello
      · exact k
    · exact h
  | syncComplete buf acts =>
    simp only [Cons.step]
    split
    · split
      · exact ⟨rfl, rfl, rfl, rfl, rfl, rfl, rfl, rfl, rfl, hlog⟩
      · simp only [onSyncData]
        refine BothDo.same _ (fun st => BothDo.same _ (fun r => ?_))
        have k : Twin l l' { s with syncFetcher := some false, iblt := s.syncDataName.drop (s.syncDataName.length - 1), prefixes := r.1 }
            { s with now := n0, timers := ts0, draws := d0, log := lg0, orphans := o0, syncFetcher := some false, iblt := s.syncDataName.drop (s.syncDataName.length - 1), prefixes := r.1 } :=
          ⟨rfl, rfl, rfl, rfl, rfl, rfl, rfl, rfl, rfl, hlog⟩
        refine BothDo.bind (R := Twin l l') ?_ (fun t t' ht => ht.sendSync)
        split
        · exact k
        · exact (k.emit _).calls acts
    · exact h
  | syncError t =>
    simp only [Cons.step]
    split
    · have k : Twin l l' { s with syncFetcher := some false } { s with now := n0, timers := ts0, draws := d0, log := lg0, orphans := o0, syncFetcher := some false } :=
        ⟨rfl, rfl, rfl, rfl, rfl, rfl, rfl, rfl, rfl, hlog⟩
      split
      · exact k.sendSync
      · exact ⟨rfl, rfl, rfl, rfl, rfl, rfl, rfl, rfl, rfl, hlog⟩
    · exact h
  | tick t =>
    have key : ∀ n n' : Nat, Twin l l' { s with now := n } { s with now := n', timers := ts0, draws := d0, log := lg0, orphans := o0 } := fun n n' =>
      ⟨rfl, rfl, rfl, rfl, rfl, rfl, rfl, rfl, rfl, hlog⟩
    simp only [Cons.step, BothDo]
    split <;> split
    · exact key t t
    · exact key t n0
    · exact key s.now t
    · exact h
  | fire =>
    have hf := hf rfl
    simp only [Cons.step]
    cases h1 : takeDue s.now s.timers with
    | none =>
      cases h2 : takeDue n0 ts0 with
      | none => exact h
      | some x => rw [h1, h2] at hf; simp at hf
    | some x =>
      cases h2 : takeDue n0 ts0 with
      | none => rw [h1, h2] at hf; simp at hf
      | some y =>
        obtain ⟨k, ts⟩ := x
        obtain ⟨k', ts'⟩ := y
        rw [h1, h2] at hf
        simp only [Option.map_some, Option.some.injEq] at hf
        subst hf
        have key : Twin l l' { s with timers := ts } { s with now := n0, timers := ts', draws := d0, log := lg0, orphans := o0 } :=
          ⟨rfl, rfl, rfl, rfl, rfl, rfl, rfl, rfl, rfl, hlog⟩
        cases k with
        | hello => exact key.sendHello
        | sync => exact key.sendSync

/-- A new filter has whole bytes, or none. -/
theorem fresh_sized {bf0 : Bloom} (hb : freshFilter cfg = .ok bf0) : (∀ b ∈ bf0.bits, b = 0#8) ∧ (SizedBf bf0 ∨ bf0.bits = []) := by
  unfold freshFilter Bloom.new at hb
  simp only [Res.bind_eq_ok, Res.ok.injEq] at hb
  obtain ⟨kt, h, rfl⟩ := hb
  refine ⟨by simp, ?_⟩
  unfold optimalParams at h
  split at h
  · cases h
  · split at h
    · cases h
    · rename_i m _
      cases h
      unfold SizedBf
      simp only [List.length_replicate, List.replicate_eq_nil_iff]
      unfold bloomTableSize
      simp only
      split
      · split <;> omega
      · split <;> omega

theorem insert_empty {bf bf' : Bloom} {n : Name} (h0 : bf.bits = []) (h : bf.insert n = .ok bf') : bf' = bf := by
  unfold Bloom.insert at h
  simp only [Res.bind_eq_ok, Res.ok.injEq] at h
  obtain ⟨bits, h1, rfl⟩ := h
  have key : ∀ (ks : List U32) {b : Bytes}, foldRes (bf.setBit n) [] ks = .ok b → b = [] := by
    intro ks
    cases ks with
    | nil => intro b hb; exact (Res.ok.inj hb).symm
    | cons k ks =>
      intro b hb
      simp only [foldRes, Res.bind_eq_ok] at hb
      obtain ⟨b1, hb1, _⟩ := hb
      unfold Bloom.setBit at hb1
      split at hb1
      · cases hb1
      · simp at hb1
  rw [h0] at h1
  rw [key _ h1, ← h0]

theorem runBf_empty {bf bf' : Bloom} (h0 : bf.bits = []) {ops : List BfOp} (h : runBf bf ops = .ok bf') : bf' = bf := by
  refine foldRes_inv (P := fun b : Bloom => b = bf) ops (fun b op b' _ hb hx => ?_) rfl h
  subst hb
  cases op with
  | ins n => exact insert_empty h0 hx
  | clear =>
    simp only [BfOp.apply, Res.ok.injEq] at hx
    subst hx
    unfold Bloom.clear
    rw [h0]
    cases b
    simp_all

/-- The filter is determined by the subscriptions. -/
theorem bloom_eq {s s' : Cons} (hs : Moment cfg s) (hs' : Moment { cfg with jitter := j, lag := g } s')
    (h : ∀ p, s.isSubscribed p = s'.isSubscribed p) : s.bloom = s'.bloom := by
  obtain ⟨bf0, hb, hi⟩ := hs.inv
  obtain ⟨bf1, hb', hi'⟩ := hs'.inv
  have : bf1 = bf0 := Res.ok.inj (hb'.symm.trans hb)
  subst this
  obtain ⟨o, h1, h2⟩ := hi.bloom
  obtain ⟨o', h1', h2'⟩ := hi'.bloom
  obtain ⟨hz, hx | hx⟩ := fresh_sized (cfg := cfg) hb
  · have := c15_set_only bf1 hx hz o o' (fun n => by rw [h2, h2']; exact Bool.eq_iff_iff.mp (h n))
    rw [h1, h1'] at this
    exact Res.ok.inj this
  · rw [runBf_empty hx h1, runBf_empty hx h1']

theorem twin_of {s s' : Cons} (hs : Reach cfg s) (hs' : Reach { cfg with jitter := j, lag := g } s') (h : Alike s s') :
    Twin s.log s'.log s s' := by
  obtain ⟨_, _, hi⟩ := hs.moment.inv
  obtain ⟨_, _, hi'⟩ := hs'.moment.inv
  refine ⟨h.iblt, h.helloName, h.syncName, h.contentType, bloom_eq hs.moment hs'.moment h.subs, NMap.ext hi.psorted hi'.psorted h.seqs,
    NMap.ext hi.ssorted hi'.ssorted (fun p => ?_), h.helloFetch, h.syncFetch, [], by simp, by simp⟩
  have := h.subs p
  unfold isSubscribed at this
  cases h1 : s.subs.find p <;> cases h2 : s'.subs.find p <;> simp_all

theorem Twin.alike {s s' : Cons} (h : Twin l l' s s') : Alike s s' :=
  ⟨fun p => by unfold isSubscribed; rw [h.subs], fun p => by unfold getSeqNo; rw [h.prefixes], h.iblt, h.helloName, h.syncName,
    h.contentType, h.helloFetch, h.syncFetch⟩

end Cons

/-- C107: consumers that have the same subscriptions and the same IBF send the same sync Interest, or both cannot send one for the same
reason; which numbers they have and how they came there does not matter. -/
theorem c107_interest (cfg : CCfg) (j : Nat → Nat) (g : Nat) (s s' : Cons) (hs : Cons.Reach cfg s)
    (hs' : Cons.Reach { cfg with jitter := j, lag := g } s') (h : ∀ p, s.isSubscribed p = s'.isSubscribed p) (hi : s.iblt = s'.iblt) :
    BothDo (fun t t' => ∃ n, t.log = s.log ++ [.interest n cfg.syncLifetime] ∧ t'.log = s'.log ++ [.interest n cfg.syncLifetime])
      (Cons.step cfg s (.call .sendSync)) (Cons.step { cfg with jitter := j, lag := g } s' (.call .sendSync)) := by
  simp only [Cons.step, Cons.call, Cons.sendSyncInterest]
  rw [← hi, ← Cons.bloom_eq hs.moment hs'.moment h]
  split
  · rfl
  · exact BothDo.same _ (fun cs => ⟨_, rfl, rfl⟩)

/-- C107: whatever happens to both of two consumers that are alike, they do the same: both fail in the same way, or send and report the
same and are alike again.  Their clocks, timers and random numbers may differ; of timers that run, the same kind has to be due. -/
theorem c107_event (cfg : CCfg) (j : Nat → Nat) (g : Nat) (s s' : Cons) (hs : Cons.Reach cfg s)
    (hs' : Cons.Reach { cfg with jitter := j, lag := g } s') (h : Alike s s') (op : Cons.Op)
    (hf : op = .fire → (Cons.takeDue s.now s.timers).map Prod.fst = (Cons.takeDue s'.now s'.timers).map Prod.fst) :
    BothDo (fun t t' => Alike t t' ∧ ∃ ext, t.log = s.log ++ ext ∧ t'.log = s'.log ++ ext)
      (Cons.step cfg s op) (Cons.step { cfg with jitter := j, lag := g } s' op) := by
  have := (Cons.twin_of hs hs' h).step (cfg := cfg) (j := j) (g := g) op hf
  revert this
  cases Cons.step cfg s op <;> cases Cons.step { cfg with jitter := j, lag := g } s' op <;>
    first | exact fun h => h | exact fun h => ⟨h.alike, h.log⟩

/-- A consumer that came to its subscription to /a by way of others. -/
def windingOps : List Cons.Op :=
  [.call (.addSubscription pB 7 false), .call .sendHello, .helloError, .tick 100, .fire, .call (.addSubscription pA 0 false),
   .helloSegment (ibfData (nameOf [115] ++ [HELLO]) .blob []), .helloComplete (encodeNames [pA.appendNumber 0]) [.removeSubscription pB] [],
   .call .sendSync]

/-- Non-vacuity for C107: two consumers with different histories that are alike, and the sync Interest they send has their filter and IBF. -/
example : ((consRun subscribed).get?.bind fun s => (consRun windingOps).get?.map fun s' =>
    (decide (s.subs = s'.subs ∧ s.prefixes = s'.prefixes ∧ s.iblt = s'.iblt ∧ s.helloDataName = s'.helloDataName ∧
       s.syncDataName = s'.syncDataName ∧ s.contentType = s'.contentType ∧ s.helloFetcher = s'.helloFetcher ∧ s.syncFetcher = s'.syncFetcher),
     decide (s.now = s'.now ∨ s.log = s'.log), decide (s.log.getLast? = s'.log.getLast?), s.subs.length)) = some (true, false, true, 1) := by
  decide +kernel

end PSync
