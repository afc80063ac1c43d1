import Verif.Proofs.SafePart
import Verif.Proofs.PubSub
/-!
A Consumer that is delivered only what a producer has sent does not fail.
-/
namespace PSync
open Spec Base

namespace Cons

variable {pc : Cfg} {cc : CCfg} {G : Base → Prop}

/-- The name of a sync Interest that carries a usable filter and the IBF of a table in `G`. -/
def GoodAsk (pc : Cfg) (G : Base → Prop) (n : Name) : Prop := ∃ bf b, SyncFields pc n bf b.iblt ∧ Usable bf ∧ G b

/-- The consumer has sent only good Interests, holds no other IBF than one of a table in `G`, and holds one whenever it
may send a sync Interest of its own accord. -/
structure Safe (pc : Cfg) (cc : CCfg) (G : Base → Prop) (s : Cons) : Prop where
  mom : Moment cc s
  asked : ∀ n lt, Out.interest n lt ∈ s.log → n = cc.syncPrefix ++ [HELLO] ∨ GoodAsk pc G n
  held : s.iblt = [] ∨ ∃ b c, G b ∧ b.iblt.toComponent pc.ibltCodec = .ok c ∧ s.iblt = [c]
  ready : ((∃ l, Out.hello l ∈ s.log) ∨ s.syncFetcher = some true ∨ ∃ d, (d, CTimer.sync) ∈ s.timers) → s.iblt ≠ []

/-- The filter keeps its size and probability. -/
theorem bloom_sized_of (hf : ∃ bf, freshFilter cc = .ok bf ∧ SizedBf bf) {s : Cons} (hs : Moment cc s) :
    SizedBf s.bloom ∧ s.bloom.fpp = cc.bfFpp := by
  obtain ⟨bf0, h0, hinv⟩ := hs.inv
  obtain ⟨ops, h1, _⟩ := hinv.bloom
  obtain ⟨bf0', h0', hz⟩ := hf
  unfold freshFilter at h0'
  rw [h0, Res.ok.injEq] at h0'
  subst h0'
  obtain ⟨bf', h2, h3, h4, _⟩ := runBf_of ops bf0 [] hz (by simp)
  rw [h1, Res.ok.injEq] at h2
  subst h2
  refine ⟨h3, ?_⟩
  have := congrArg Bloom.fpp (h4 [])
  simp only at this
  rw [← this]
  unfold Bloom.new at h0
  simp only [Res.bind_eq_ok, Res.ok.injEq] at h0
  obtain ⟨_, _, rfl⟩ := h0
  rfl

theorem bloom_sized (hm : Matching pc cc) {s : Cons} (hs : Moment cc s) : SizedBf s.bloom ∧ s.bloom.fpp = cc.bfFpp :=
  bloom_sized_of hm.filter hs

theorem insert_total {bf : Bloom} (h : SizedBf bf) (n : Name) : ∃ bf', bf.insert n = .ok bf' ∧ SizedBf bf' := by
  obtain ⟨bits, h1, h2, _⟩ := insert_of h n
  exact ⟨_, h1, h.1, by simp only [h2]; exact h.2⟩

theorem inserts_total : ∀ (l : List Name) {bf : Bloom}, SizedBf bf → ∃ bf', foldRes Bloom.insert bf l = .ok bf'
  | [], bf, _ => ⟨bf, rfl⟩
  | n :: l, bf, h => by
    obtain ⟨b1, h1, h2⟩ := insert_total h n
    obtain ⟨b2, h3⟩ := inserts_total l h2
    exact ⟨b2, by simp only [foldRes, h1, Res.ok_bind, h3]⟩

/-- Log, IBF, fetcher and timers unchanged (up to callbacks). -/
theorem Safe.quiet {s s' : Cons} (h : Safe pc cc G s) (hm : Moment cc s') (h1 : s'.iblt = s.iblt)
    (h2 : ∀ n lt, Out.interest n lt ∈ s'.log → Out.interest n lt ∈ s.log) (h3 : ∀ l, Out.hello l ∈ s'.log → Out.hello l ∈ s.log)
    (h4 : s'.syncFetcher = some true → s.syncFetcher = some true) (h5 : ∀ d, (d, CTimer.sync) ∈ s'.timers → (d, CTimer.sync) ∈ s.timers) :
    Safe pc cc G s' := by
  refine ⟨hm, fun n lt hn => h.asked n lt (h2 n lt hn), h1 ▸ h.held, ?_⟩
  rintro (⟨l, hl⟩ | hf | ⟨d, hd⟩)
  · rw [h1]; exact h.ready (.inl ⟨l, h3 l hl⟩)
  · rw [h1]; exact h.ready (.inr (.inl (h4 hf)))
  · rw [h1]; exact h.ready (.inr (.inr ⟨d, h5 d hd⟩))

theorem sendSync_safe (hm : Matching pc cc) (hG : Sendable pc G) {s : Cons} (hs : Safe pc cc G s) (hi : s.iblt ≠ []) :
    ∃ s', s.sendSyncInterest cc = .ok s' ∧ Safe pc cc G s' ∧ s'.iblt = s.iblt := by
  obtain ⟨hz, hfpp⟩ := bloom_sized hm hs.mom
  obtain ⟨th, hth, hth2, hp⟩ := hm.thousandths
  have hcs : ∃ cs, s.bloom.toComponents cc.libm = .ok cs := by
    unfold Bloom.toComponents
    rw [hfpp, hth]
    exact ⟨_, rfl⟩
  obtain ⟨cs, hcs⟩ := hcs
  have hsend : s.sendSyncInterest cc =
      .ok { s with syncFetcher := some true, log := s.log ++ [.interest (syncPrefixName cc ++ cs ++ s.iblt) cc.syncLifetime] } := by
    unfold sendSyncInterest
    rw [if_neg hi, hcs, Res.ok_bind, leftRunning_stopFetch, Nat.add_zero]
  refine ⟨_, hsend, ⟨hs.mom.trans (.single (.call (C := fun _ => True) .sendSync trivial hsend)), ?_, hs.held, fun _ => hi⟩, rfl⟩
  intro n lt hn
  rcases List.mem_append.mp hn with hn | hn
  · exact hs.asked n lt hn
  right
  rcases hs.held with h0 | ⟨b, c, h1, h2, h3⟩
  · exact absurd h0 hi
  obtain ⟨bf0, hb0, hz0⟩ := hm.filter
  obtain ⟨bf, k1, k2, _⟩ := hs.mom.sync_fields pc cc bf0 b.iblt c s _ n lt hm.syncPrefix hm.libm hm.extraSalt hm.count hb0 hz0 th hth hth2 hp
    (hG b h1 c h2) h3 hsend (by rw [List.mem_singleton.mp hn])
  exact ⟨bf, b, k1, fun q => by rw [k2 q, contains_of hz]; exact ⟨_, rfl⟩, h1⟩

theorem sendHello_safe {s : Cons} (hs : Safe pc cc G s) (hM : Moment cc (s.sendHelloInterest cc)) :
    Safe pc cc G (s.sendHelloInterest cc) := by
  refine ⟨hM, fun n lt hn => ?_, hs.held, ?_⟩
  · rcases List.mem_append.mp hn with hn | hn
    · exact hs.asked n lt hn
    · rw [List.mem_singleton] at hn
      cases hn
      exact .inl rfl
  · rintro (⟨l, hl⟩ | hf | hd)
    · refine hs.ready (.inl ⟨l, ?_⟩)
      simpa [sendHelloInterest] using hl
    · exact hs.ready (.inr (.inl hf))
    · exact hs.ready (.inr (.inr hd))

/-- One API call. -/
theorem call_safe (hm : Matching pc cc) (hG : Sendable pc G) {s : Cons} (hs : Safe pc cc G s) {c : Call}
    (hc : c = .sendSync → s.iblt ≠ []) : ∃ s', call cc s c = .ok s' ∧ Safe pc cc G s' ∧ s'.iblt = s.iblt := by
  obtain ⟨hz, _⟩ := bloom_sized hm hs.mom
  have mom : ∀ {s'}, call cc s c = .ok s' → Moment cc s' := fun h => hs.mom.trans (.single (.call (C := fun _ => True) c trivial h))
  cases c with
  | addSubscription p seq cb =>
    have htot : ∃ s', call cc s (.addSubscription p seq cb) = .ok s' := by
      simp only [call, addSubscription]
      cases s.prefixes.find p with
      | some _ => exact ⟨_, rfl⟩
      | none =>
        obtain ⟨bf, h1, _⟩ := insert_total hz p
        simp only [h1, Res.ok_bind]
        exact ⟨_, rfl⟩
    obtain ⟨s', h⟩ := htot
    have hM := mom h
    refine ⟨s', h, ?_⟩
    simp only [call, addSubscription] at h
    split at h
    · cases h; exact ⟨hs, rfl⟩
    · simp only [Res.bind_eq_ok, Res.ok.injEq] at h
      obtain ⟨_, ⟨_, _, rfl⟩, rfl⟩ := h
      simp only at hM ⊢
      split at hM <;> rename_i hcb
      · rw [if_pos hcb]
        exact ⟨hs.quiet hM rfl (by simp [emit]) (by simp [emit]) (fun h => h) (fun _ h => h), rfl⟩
      · rw [if_neg hcb]
        exact ⟨hs.quiet hM rfl (fun _ _ h => h) (fun _ h => h) (fun h => h) (fun _ h => h), rfl⟩
  | removeSubscription p =>
    have htot : ∃ s', call cc s (.removeSubscription p) = .ok s' := by
      simp only [call, removeSubscription]
      split
      · exact ⟨_, rfl⟩
      · obtain ⟨bf, h1⟩ := inserts_total (s.subs.erase p).keys (bf := s.bloom.clear)
          ⟨hz.1, by simpa [Bloom.clear] using hz.2⟩
        simp only [h1, Res.ok_bind]
        exact ⟨_, rfl⟩
    obtain ⟨s', h⟩ := htot
    have hM := mom h
    refine ⟨s', h, ?_⟩
    simp only [call, Res.bind_eq_ok, Res.ok.injEq] at h
    obtain ⟨⟨r, s1⟩, h1, rfl⟩ := h
    rcases removeSubscription_ok h1 with ⟨_, _, rfl⟩ | ⟨_, _, bf, _, rfl⟩
    · exact ⟨hs, rfl⟩
    · exact ⟨hs.quiet hM rfl (fun _ _ h => h) (fun _ h => h) (fun h => h) (fun _ h => h), rfl⟩
  | sendHello => exact ⟨_, rfl, sendHello_safe hs (mom rfl), rfl⟩
  | sendSync => exact sendSync_safe hm hG hs (hc rfl)
  | stop =>
    exact ⟨_, rfl, hs.quiet (mom rfl) rfl (fun _ _ h => h) (fun _ h => h) (by simp [stop]) (by simp [stop]), rfl⟩

theorem calls_safe (hm : Matching pc cc) (hG : Sendable pc G) : ∀ (l : List Call) {s : Cons}, Safe pc cc G s → s.iblt ≠ [] →
    ∃ s', foldRes (call cc) s l = .ok s' ∧ Safe pc cc G s' ∧ s'.iblt = s.iblt
  | [], s, hs, _ => ⟨s, rfl, hs, rfl⟩
  | c :: l, s, hs, hi => by
    obtain ⟨s1, h1, h2, h3⟩ := call_safe hm hG hs (c := c) (fun _ => hi)
    obtain ⟨s2, h4, h5, h6⟩ := calls_safe hm hG l h2 (by rw [h3]; exact hi)
    exact ⟨s2, by simp only [foldRes, h1, Res.ok_bind, h4], h5, h6.trans h3⟩

theorem helloSteps_total (subs : NMap Unit) : ∀ (l : List Name) a, (∀ n ∈ l, ∃ x, announced n = some x) →
    ∃ r, foldRes (helloStep subs) a l = .ok r
  | [], a, _ => ⟨a, rfl⟩
  | n :: l, (prefixes, updates, avail), h => by
    obtain ⟨⟨p, q⟩, hx⟩ := h n (by simp)
    have h1 : ∃ a1, helloStep subs (prefixes, updates, avail) n = .ok a1 := by
      unfold helloStep
      rw [splitName_of hx, Res.ok_bind]
      simp only
      split
      · split <;> exact ⟨_, rfl⟩
      · exact ⟨_, rfl⟩
    obtain ⟨a1, h1⟩ := h1
    obtain ⟨r, hr⟩ := helloSteps_total subs l a1 (fun m hm => h m (by simp [hm]))
    exact ⟨r, by simp only [foldRes, h1, Res.ok_bind, hr]⟩

theorem syncSteps_total : ∀ (l : List Name) a, (∀ n ∈ l, ∃ x, announced n = some x) → ∃ r, foldRes syncStep a l = .ok r
  | [], a, _ => ⟨a, rfl⟩
  | n :: l, (prefixes, updates), h => by
    obtain ⟨⟨p, q⟩, hx⟩ := h n (by simp)
    have h1 : ∃ a1, syncStep (prefixes, updates) n = .ok a1 := by
      unfold syncStep
      rw [splitName_of hx, Res.ok_bind]
      simp only
      split
      · exact ⟨_, rfl⟩
      · split <;> exact ⟨_, rfl⟩
    obtain ⟨a1, h1⟩ := h1
    obtain ⟨r, hr⟩ := syncSteps_total l a1 (fun m hm => h m (by simp [hm]))
    exact ⟨r, by simp only [foldRes, h1, Res.ok_bind, hr]⟩

/-- What a fetch delivers: the IBF of a table in `G` in the name, and names with numbers as content. -/
def Delivery (pc : Cfg) (G : Base → Prop) (nm : Name) (buf : Bytes) : Prop :=
  (∃ b c, G b ∧ b.iblt.toComponent pc.ibltCodec = .ok c ∧ nm.drop (nm.length - 1) = [c]) ∧
  ∃ st, StateMsg.wireDecode buf = .ok st ∧ ∀ n ∈ st.content, ∃ x, announced n = some x

theorem onHelloData_safe (hm : Matching pc cc) (hG : Sendable pc G) {s : Cons} (hs : Safe pc cc G s) {buf : Bytes}
    (hd : Delivery pc G s.helloDataName buf) (a1 a2 : List Call) : ∃ s', onHelloData cc s buf a1 a2 = .ok s' ∧ Safe pc cc G s' := by
  obtain ⟨⟨b, c, h1, h2, h3⟩, st, hst, hall⟩ := hd
  obtain ⟨r, hr⟩ := helloSteps_total s.subs st.content (s.prefixes, [], []) hall
  unfold onHelloData
  simp only [hst, Res.ok_bind, hr]
  have hM : Moment cc ({ s with iblt := s.helloDataName.drop (s.helloDataName.length - 1), prefixes := r.1 }.emit (.hello r.2.2)) :=
    hs.mom.trans (C := fun _ => True) ((Relation.ReflTransGen.single (.helloData st.content r _ hr)).tail (.hello _ r.2.2))
  have hs0 : Safe pc cc G ({ s with iblt := s.helloDataName.drop (s.helloDataName.length - 1), prefixes := r.1 }.emit (.hello r.2.2)) := by
    refine ⟨hM, fun n lt hn => hs.asked n lt (by simpa [emit] using hn), .inr ⟨b, c, h1, h2, h3⟩, fun _ => ?_⟩
    simp only [emit]
    rw [h3]; simp
  obtain ⟨s1, k1, k2, k3⟩ := calls_safe hm hG a1 hs0 (by simp only [emit]; rw [h3]; simp)
  rw [k1, Res.ok_bind]
  split
  · exact ⟨s1, rfl, k2⟩
  · have hs1 : Safe pc cc G (s1.emit (.update r.2.1)) :=
      k2.quiet (k2.mom.trans (C := fun _ => True) (.single (.notify _ _))) rfl (by simp [emit]) (by simp [emit]) (fun h => h) (fun _ h => h)
    obtain ⟨s2, k4, k5, _⟩ := calls_safe hm hG a2 hs1 (by
      show s1.iblt ≠ []
      rw [k3]; simp only [emit]; rw [h3]; simp)
    exact ⟨s2, k4, k5⟩

theorem onSyncData_safe (hm : Matching pc cc) (hG : Sendable pc G) {s : Cons} (hs : Safe pc cc G s) {buf : Bytes}
    (hd : Delivery pc G s.syncDataName buf) (acts : List Call) : ∃ s', onSyncData cc s buf acts = .ok s' ∧ Safe pc cc G s' := by
  obtain ⟨⟨b, c, h1, h2, h3⟩, st, hst, hall⟩ := hd
  obtain ⟨r, hr⟩ := syncSteps_total st.content (s.prefixes, []) hall
  unfold onSyncData
  simp only [hst, Res.ok_bind, hr]
  have hM : Moment cc { s with iblt := s.syncDataName.drop (s.syncDataName.length - 1), prefixes := r.1 } :=
    hs.mom.trans (C := fun _ => True) (.single (.syncData st.content r _ hr))
  have hne : s.syncDataName.drop (s.syncDataName.length - 1) ≠ [] := by rw [h3]; simp
  have hs0 : Safe pc cc G { s with iblt := s.syncDataName.drop (s.syncDataName.length - 1), prefixes := r.1 } :=
    ⟨hM, hs.asked, .inr ⟨b, c, h1, h2, h3⟩, fun _ => hne⟩
  split
  · obtain ⟨s', h, h', _⟩ := sendSync_safe hm hG hs0 hne
    exact ⟨s', h, h'⟩
  · have hs1 := hs0.quiet (hM.trans (C := fun _ => True) (.single (.notify _ r.2))) rfl (by simp [emit]) (by simp [emit])
      (fun h => h) (fun _ h => h)
    obtain ⟨s2, k1, k2, k3⟩ := calls_safe hm hG acts hs1 hne
    rw [k1, Res.ok_bind]
    obtain ⟨s', h, h', _⟩ := sendSync_safe hm hG k2 (by rw [k3]; exact hne)
    exact ⟨s', h, h'⟩

theorem takeDue_mem {now : Nat} : ∀ {l ts : List (Nat × CTimer)} {k : CTimer}, takeDue now l = some (k, ts) →
    (∃ d, (d, k) ∈ l) ∧ ∀ x ∈ ts, x ∈ l
  | [], _, _, h => by simp [takeDue] at h
  | (d, k') :: l, ts, k, h => by
    unfold takeDue at h
    split at h
    · cases h
      exact ⟨⟨d, by simp⟩, fun x hx => by simp [hx]⟩
    · split at h
      · cases h
      · rename_i k2 ts2 h2
        cases h
        obtain ⟨⟨d', h3⟩, h4⟩ := takeDue_mem h2
        refine ⟨⟨d', by simp [h3]⟩, fun x hx => ?_⟩
        rcases List.mem_cons.mp hx with rfl | hx
        · simp
        · simp [h4 x hx]

/-- One event. -/
theorem step_safe (hm : Matching pc cc) (hG : Sendable pc G) {s : Cons} (hs : Safe pc cc G s) {op : Op}
    (hcall : op = .call .sendSync → ∃ l, Out.hello l ∈ s.log)
    (hhello : ∀ buf a1 a2, op = .helloComplete buf a1 a2 → s.helloFetcher = some true → Delivery pc G s.helloDataName buf)
    (hsync : ∀ buf a, op = .syncComplete buf a → s.syncFetcher = some true → s.contentType ≠ .nack → Delivery pc G s.syncDataName buf) :
    ∃ s', step cc s op = .ok s' ∧ Safe pc cc G s' := by
  have internal : ∀ {s' : Cons}, s'.iblt = s.iblt → s'.prefixes = s.prefixes → s'.subs = s.subs → s'.bloom = s.bloom → s'.log = s.log →
      Moment cc s' := fun h1 h2 h3 h4 h5 => hs.mom.trans (C := fun _ => True) (.single (.internal h1 h2 h3 h4 h5))
  cases op with
  | call c =>
    obtain ⟨s', h1, h2, _⟩ := call_safe hm hG hs (c := c) (fun e => hs.ready (.inl (hcall (by rw [e]))))
    exact ⟨s', h1, h2⟩
  | helloSegment d =>
    simp only [step]
    split
    · refine ⟨_, rfl, ?_⟩
      split
      · exact hs.quiet (internal rfl rfl rfl rfl rfl) rfl (fun _ _ h => h) (fun _ h => h) (fun h => h) (fun _ h => h)
      · exact hs
    · exact ⟨s, rfl, hs⟩
  | helloComplete buf a1 a2 =>
    simp only [step]
    split
    · rename_i hact
      exact onHelloData_safe hm hG (s := { s with helloFetcher := some false })
        (hs.quiet (internal rfl rfl rfl rfl rfl) rfl (fun _ _ h => h) (fun _ h => h) (fun h => h) (fun _ h => h))
        (hhello buf a1 a2 rfl hact) a1 a2
    · exact ⟨s, rfl, hs⟩
  | helloError =>
    simp only [step]
    split
    · exact ⟨_, rfl, hs.quiet (internal rfl rfl rfl rfl rfl) rfl (fun _ _ h => h) (fun _ h => h) (fun h => h) (by simp)⟩
    · exact ⟨s, rfl, hs⟩
  | syncSegment d =>
    simp only [step]
    split
    · refine ⟨_, rfl, ?_⟩
      generalize hs1 : (if d.finalBlock.isSome = true then { s with syncDataName := Name.dropLast d.name 2, contentType := d.contentType } else s) = s1
      have h1 : Safe pc cc G s1 := by
        subst hs1
        split
        · exact hs.quiet (internal rfl rfl rfl rfl rfl) rfl (fun _ _ h => h) (fun _ h => h) (fun h => h) (fun _ h => h)
        · exact hs
      split
      · exact sendHello_safe h1 (h1.mom.trans (.single (.call (C := fun _ => True) .sendHello trivial rfl)))
      · exact h1
    · exact ⟨s, rfl, hs⟩
  | syncComplete buf acts =>
    simp only [step]
    split
    · rename_i hact
      split
      · exact ⟨_, rfl, hs.quiet (internal rfl rfl rfl rfl rfl) rfl (fun _ _ h => h) (fun _ h => h) (by simp) (fun _ h => h)⟩
      · rename_i hk
        exact onSyncData_safe hm hG (s := { s with syncFetcher := some false })
          (hs.quiet (internal rfl rfl rfl rfl rfl) rfl (fun _ _ h => h) (fun _ h => h) (by simp) (fun _ h => h))
          (hsync buf acts rfl hact hk) acts
    · exact ⟨s, rfl, hs⟩
  | syncError timeout =>
    simp only [step]
    split
    · rename_i hact
      have hi := hs.ready (.inr (.inl hact))
      split
      · obtain ⟨s', h, h', _⟩ := sendSync_safe hm hG (s := { s with syncFetcher := some false })
          (hs.quiet (internal rfl rfl rfl rfl rfl) rfl (fun _ _ h => h) (fun _ h => h) (by simp) (fun _ h => h)) hi
        exact ⟨s', h, h'⟩
      · exact ⟨_, rfl, internal rfl rfl rfl rfl rfl, hs.asked, hs.held, fun _ => hi⟩
    · exact ⟨s, rfl, hs⟩
  | tick t =>
    simp only [step]
    refine ⟨_, rfl, ?_⟩
    split
    · exact hs.quiet (internal rfl rfl rfl rfl rfl) rfl (fun _ _ h => h) (fun _ h => h) (fun h => h) (fun _ h => h)
    · exact hs
  | fire =>
    simp only [step]
    cases hd : takeDue s.now s.timers with
    | none => exact ⟨s, rfl, hs⟩
    | some x =>
      obtain ⟨k, ts⟩ := x
      obtain ⟨⟨d, hmem⟩, hsub⟩ := takeDue_mem hd
      have h1 : Safe pc cc G { s with timers := ts } :=
        hs.quiet (internal rfl rfl rfl rfl rfl) rfl (fun _ _ h => h) (fun _ h => h) (fun h => h) (fun d h => hsub _ h)
      cases k with
      | hello => exact ⟨_, rfl, sendHello_safe h1 (h1.mom.trans (.single (.call (C := fun _ => True) .sendHello trivial rfl)))⟩
      | sync =>
        obtain ⟨s', h, h', _⟩ := sendSync_safe hm hG h1 (hs.ready (.inr (.inr ⟨d, hmem⟩)))
        exact ⟨s', h, h'⟩

theorem init_safe {s : Cons} (h : init cc = .ok s) : Safe pc cc G s := by
  have hM : Moment cc s := ⟨s, h, .refl⟩
  unfold init at h
  simp only [Res.bind_eq_ok, Res.ok.injEq] at h
  obtain ⟨bf, _, rfl⟩ := h
  exact ⟨hM, by simp, .inl rfl, by simp⟩

end Cons
end PSync
