import Verif.Proofs.PubSubFetch
/-!
A consumer and a producer over a network: what the consumer knows when it holds an IBF.
-/
namespace PSync
open Spec

theorem best_ge_old {p : Name} {x : Nat} {ps : List (Name × Nat)} : ∃ y, best p (some x) ps = some y ∧ x ≤ y := by
  obtain ⟨y, hy⟩ := best_some p x ps
  exact ⟨y, hy, ((best_le_iff p (some x) ps y).mp ⟨y, hy, le_refl _⟩).2.1⟩

theorem best_ge_mem {p : Name} {old : Option Nat} {x : Nat} {ps : List (Name × Nat)} (h : (p, x) ∈ ps) :
    ∃ y, best p old ps = some y ∧ x ≤ y := by
  cases hb : best p old ps with
  | none => exact absurd h (((best_none_iff p old ps).mp hb).2 x)
  | some y => exact ⟨y, rfl, ((best_le_iff p old ps y).mp ⟨y, hb, le_refl _⟩).2.2 x h⟩

/-- During a fetch: the last packet that arrived decides. -/
theorem window_last {α : Type} (act : Nat → Prop) (ask : Nat → List Name) (X : Nat → α) (Seg : Nat → Data → Prop)
    (Hit : Data → α → Prop) (m : Nat) : ∀ n, m + 1 ≤ n →
    (∀ k, m < k → k < n → ask k <+: ask (k + 1)) →
    (∀ k, m < k → k < n → act (k + 1) → ask (k + 1) = ask k →
      act k ∧ ((∃ d, Seg k d ∧ Hit d (X (k + 1))) ∨ (X (k + 1) = X k ∧ ∀ d, Seg k d → d.finalBlock = none))) →
    act n → ask n = ask (m + 1) →
    (∃ k d, m < k ∧ k < n ∧ Seg k d ∧ Hit d (X n)) ∨ ∀ k d, m < k → k < n → Seg k d → d.finalBlock = none := by
  intro n hmn
  induction n, hmn using Nat.le_induction with
  | base => intro _ _ _ _; exact .inr fun k d h1 h2 => by omega
  | succ n hn ih =>
    intro mono hst ha hk
    have up : ∀ j, m + 1 ≤ j → j ≤ n → ask (m + 1) <+: ask j := by
      intro j hj
      induction j, hj using Nat.le_induction with
      | base => intro _; exact List.prefix_refl _
      | succ j hj ih' => intro h; exact (ih' (by omega)).trans (mono j (by omega) (by omega))
    have h1 := up n hn (le_refl _)
    have h2 := mono n (by omega) (by omega)
    have h3 : ask n = ask (m + 1) := by
      refine (h1.eq_of_length_le ?_).symm
      rw [← hk]
      exact h2.length_le
    obtain ⟨a, ⟨d, hd, hh⟩ | ⟨e, hno⟩⟩ := hst n (by omega) (by omega) ha (hk.trans h3.symm)
    · exact .inl ⟨n, d, by omega, by omega, hd, hh⟩
    · rcases ih (fun k h1 h2 => mono k h1 (by omega)) (fun k h1 h2 => hst k h1 (by omega)) a h3 with ⟨k, d, h4, h5, h6, h7⟩ | h4
      · exact .inl ⟨k, d, h4, by omega, h6, by rw [e]; exact h7⟩
      · refine .inr fun k d h5 h6 h7 => ?_
        by_cases hkn : k = n
        · subst hkn; exact hno d h7
        · exact h4 k d h5 (by omega) h7

namespace Cons

/-- The consumer has at least the numbers of the table `b` for every subscribed prefix. -/
def Upd (s : Cons) (b : Base) : Prop :=
  ∀ p x, s.isSubscribed p = true → b.getSeqNo p = some x → ∃ y, s.getSeqNo p = some y ∧ x ≤ y

/-- The IBF the consumer holds, if any, is that of a table it is up to date with. -/
def Held (pc : Cfg) (G : Base → Prop) (s : Cons) : Prop :=
  s.iblt = [] ∨ ∃ b c, G b ∧ b.iblt.toComponent pc.ibltCodec = .ok c ∧ s.iblt = [c] ∧ Upd s b

/-- The sync Interest in flight, if any, carries the IBF of a table the consumer is up to date with, and a filter with
every subscription. -/
def Flying (pc : Cfg) (cc : CCfg) (G : Base → Prop) (s : Cons) : Prop :=
  s.syncFetcher = some true → ∃ name bf b, (askedUnder (cc.syncPrefix ++ [SYNC]) s.log).getLast? = some name ∧
    SyncFields pc name bf b.iblt ∧ G b ∧ (∀ q, s.isSubscribed q = true → bf.contains q = .ok true) ∧ Upd s b ∧
    ∃ c, b.iblt.toComponent pc.ibltCodec = .ok c ∧ name.getLast? = some c

/-- Subscriptions shrink and numbers grow. -/
def Grows (s s' : Cons) : Prop :=
  ∀ p, s'.isSubscribed p = true → s.isSubscribed p = true ∧ ∀ y, s.getSeqNo p = some y → ∃ y', s'.getSeqNo p = some y' ∧ y ≤ y'

theorem Grows.refl (s : Cons) : Grows s s := fun _ h => ⟨h, fun y hy => ⟨y, hy, le_refl _⟩⟩

theorem Grows.of_eq {s s' : Cons} (h1 : s'.subs = s.subs) (h2 : s'.prefixes = s.prefixes) : Grows s s' := by
  intro p hp
  unfold isSubscribed at hp ⊢
  rw [h1] at hp
  refine ⟨hp, fun y hy => ⟨y, ?_, le_refl _⟩⟩
  unfold getSeqNo at hy ⊢
  rw [h2]
  exact hy

theorem Upd.grows {s s' : Cons} {b : Base} (h : Upd s b) (hg : Grows s s') : Upd s' b := by
  intro p x hp hx
  obtain ⟨h1, h2⟩ := hg p hp
  obtain ⟨y, h3, h4⟩ := h p x h1 hx
  obtain ⟨y', h5, h6⟩ := h2 y h3
  exact ⟨y', h5, by omega⟩

theorem Held.grows {pc : Cfg} {G : Base → Prop} {s s' : Cons} (h : Held pc G s) (hi : s'.iblt = s.iblt) (hg : Grows s s') :
    Held pc G s' := by
  rcases h with h | ⟨b, c, h1, h2, h3, h4⟩
  · exact .inl (hi.trans h)
  · exact .inr ⟨b, c, h1, h2, hi.trans h3, h4.grows hg⟩

theorem Flying.grows {pc : Cfg} {cc : CCfg} {G : Base → Prop} {s s' : Cons} (h : Flying pc cc G s)
    (hf : s'.syncFetcher = some true → s.syncFetcher = some true)
    (hl : askedUnder (cc.syncPrefix ++ [SYNC]) s'.log = askedUnder (cc.syncPrefix ++ [SYNC]) s.log) (hg : Grows s s') :
    Flying pc cc G s' := by
  intro h'
  obtain ⟨name, bf, b, h1, h2, h3, h4, h5, h6⟩ := h (hf h')
  exact ⟨name, bf, b, hl ▸ h1, h2, h3, fun q hq => h4 q (hg q hq).1, h5.grows hg, h6⟩

variable {pc : Cfg} {cc : CCfg} {G : Base → Prop}

/-- Tables whose IBF survives the transmission. -/
def Sendable (pc : Cfg) (G : Base → Prop) : Prop :=
  ∀ b, G b → ∀ c, b.iblt.toComponent pc.ibltCodec = .ok c → Table.initialize pc.ibltCodec pc.expected c = .ok b.iblt

theorem sendSync_flying (hm : Matching pc cc) (hG : Sendable pc G) {s s' : Cons} (hs : Moment cc s) (hH : Held pc G s)
    (h : s.sendSyncInterest cc = .ok s') : Held pc G s' ∧ Flying pc cc G s' := by
  obtain ⟨hne, cs, hcs, e⟩ := sendSyncInterest_ok h
  have hg : Grows s s' := Grows.of_eq (by rw [e]) (by rw [e])
  refine ⟨hH.grows (by rw [e]) hg, fun _ => ?_⟩
  rcases hH with h0 | ⟨b, c, h1, h2, h3, h4⟩
  · exact absurd h0 hne
  obtain ⟨bf0, hb0, hz⟩ := hm.filter
  obtain ⟨th, hth, hth2, hp⟩ := hm.thousandths
  obtain ⟨bf, k1, _, k2⟩ := hs.sync_fields pc cc bf0 b.iblt c s s' _ _ hm.syncPrefix hm.libm hm.extraSalt hm.count hb0 hz th hth hth2 hp
    (hG b h1 c h2) h3 h (by rw [e])
  refine ⟨_, bf, b, ?_, k1, h1, fun q hq => k2 q (hg q hq).1, h4.grows hg, c, h2, by simp [h3]⟩
  rw [e]
  simp only [askedUnder_append, syncPrefixName]
  rw [askedUnder_hit (by rw [List.append_assoc (cc.syncPrefix ++ [SYNC])]; exact List.prefix_append _ _)]
  simp

/-- Adding `p` with the number `q` is safe for the IBF `ib` the consumer holds. -/
def Current (pc : Cfg) (G : Base → Prop) (ib : Name) (p : Name) (q : Nat) : Prop :=
  ∀ b, G b → ∀ c, b.iblt.toComponent pc.ibltCodec = .ok c → ib = [c] → ∀ x, b.getSeqNo p = some x → x ≤ q % U64

theorem call_held (hm : Matching pc cc) (hG : Sendable pc G) {s s' : Cons} (hs : Moment cc s) (hH : Held pc G s)
    (hF : Flying pc cc G s) {c : Call}
    (hadd : ∀ p q cb, c = .addSubscription p q cb → s.syncFetcher ≠ some true ∧ Current pc G s.iblt p q)
    (h : call cc s c = .ok s') : Held pc G s' ∧ Flying pc cc G s' := by
  cases c with
  | addSubscription p seq cb =>
    obtain ⟨hno, hcur⟩ := hadd p seq cb rfl
    have hw := went_call h
    simp only [call, Res.bind_eq_ok, Res.ok.injEq] at h
    obtain ⟨⟨r, s1⟩, h1, rfl⟩ := h
    have hfe : s1.syncFetcher = s.syncFetcher := by
      unfold addSubscription at h1
      split at h1
      · cases h1; rfl
      · simp only [Res.bind_eq_ok, Res.ok.injEq, Prod.mk.injEq] at h1
        obtain ⟨bf, _, _, rfl⟩ := h1
        split <;> rfl
    rcases addSubscription_ok h1 with ⟨_, _, rfl⟩ | ⟨hx, _, bf, hbf, hp, hsub, hb, hi, _⟩
    · exact ⟨hH, hF⟩
    · refine ⟨?_, fun hf => absurd (hfe ▸ hf) hno⟩
      rcases hH with h0 | ⟨b, c, k1, k2, k3, k4⟩
      · exact .inl (hi.trans h0)
      · refine .inr ⟨b, c, k1, k2, hi.trans k3, fun p' x hp' hx' => ?_⟩
        simp only [isSubscribed, hsub, NMap.find_set] at hp'
        simp only [getSeqNo, hp, NMap.find_set]
        split
        · rename_i heq
          subst heq
          exact ⟨_, rfl, hcur b k1 c k2 k3 x hx'⟩
        · rename_i hne
          rw [if_neg hne] at hp'
          exact k4 p' x hp' hx'
  | removeSubscription p =>
    simp only [call, Res.bind_eq_ok, Res.ok.injEq] at h
    obtain ⟨⟨r, s1⟩, h1, rfl⟩ := h
    rcases removeSubscription_ok h1 with ⟨_, _, rfl⟩ | ⟨hx, _, bf, hbf, rfl⟩
    · exact ⟨hH, hF⟩
    · have hg : Grows s { s with prefixes := s.prefixes.erase p, subs := s.subs.erase p, bloom := bf } := by
        intro q hq
        simp only [isSubscribed, NMap.find_erase] at hq
        simp only [getSeqNo, NMap.find_erase]
        split at hq
        · simp at hq
        · rename_i hne
          exact ⟨hq, fun y hy => ⟨y, by rw [if_neg hne]; exact hy, le_refl _⟩⟩
      exact ⟨hH.grows rfl hg, hF.grows (fun h => h) rfl hg⟩
  | sendHello =>
    simp only [call, Res.ok.injEq] at h
    have hw := went_sendHello cc s
    rw [h] at hw
    have hg : Grows s s' := Grows.of_eq (by rw [← h]; rfl) (by rw [← h]; rfl)
    refine ⟨hH.grows hw.iblt hg, hF.grows (fun hf => by rw [← h] at hf; exact hf) ?_ hg⟩
    rw [← h]
    simp only [sendHelloInterest, askedUnder_append, helloPrefix]
    rw [askedUnder_miss (by have := not_sync_hello cc.syncPrefix []; rwa [List.append_nil] at this), List.append_nil]
  | sendSync => exact sendSync_flying hm hG hs hH h
  | stop =>
    simp only [call, Res.ok.injEq] at h
    subst h
    exact ⟨hH.grows rfl (Grows.of_eq rfl rfl), fun hf => by simp [stop] at hf⟩

theorem calls_held (hm : Matching pc cc) (hG : Sendable pc G) (rest : List Call) : ∀ {cs : List Call} {s s' : Cons}, Moment cc s →
    Held pc G s → Flying pc cc G s → NoneAdded (decide (s.syncFetcher = some true)) (cs ++ rest) →
    (∀ p q cb, Call.addSubscription p q cb ∈ cs → Current pc G s.iblt p q) →
    foldRes (call cc) s cs = .ok s' →
    Moment cc s' ∧ Held pc G s' ∧ Flying pc cc G s' ∧ NoneAdded (decide (s'.syncFetcher = some true)) rest := by
  intro cs
  induction cs with
  | nil => intro s s' hs hH hF hn _ h; simp only [foldRes, Res.ok.injEq] at h; subst h; exact ⟨hs, hH, hF, hn⟩
  | cons c cs ih =>
    intro s s' hs hH hF hn hc h
    simp only [foldRes, Res.bind_eq_ok] at h
    obtain ⟨s1, h1, h2⟩ := h
    obtain ⟨a1, a2⟩ := call_held hm hG hs hH hF (c := c) (fun p q cb e => by
      subst e
      simp only [List.cons_append, NoneAdded, decide_eq_false_iff_not] at hn
      exact ⟨hn.1, hc p q cb List.mem_cons_self⟩) h1
    refine ih (hs.trans (.single (.call (C := fun _ => True) c trivial h1))) a1 a2 ?_ ?_ h2
    · cases c with
      | addSubscription p seq cb =>
        have hfe : s1.syncFetcher = s.syncFetcher := by
          simp only [call, Res.bind_eq_ok, Res.ok.injEq] at h1
          obtain ⟨⟨r, s2⟩, h1, rfl⟩ := h1
          unfold addSubscription at h1
          split at h1
          · cases h1; rfl
          · simp only [Res.bind_eq_ok, Res.ok.injEq, Prod.mk.injEq] at h1
            obtain ⟨bf, _, _, rfl⟩ := h1
            split <;> rfl
        rw [hfe]
        exact hn.2
      | removeSubscription p =>
        have hfe : s1.syncFetcher = s.syncFetcher := by
          simp only [call, Res.bind_eq_ok, Res.ok.injEq] at h1
          obtain ⟨⟨r, s2⟩, h1, rfl⟩ := h1
          rcases removeSubscription_ok h1 with ⟨_, _, rfl⟩ | ⟨hx, _, bf, hbf, rfl⟩ <;> rfl
        rw [hfe]
        exact hn
      | sendHello => simp only [call, Res.ok.injEq] at h1; subst h1; exact hn
      | sendSync =>
        obtain ⟨_, _, _, rfl⟩ := sendSyncInterest_ok (show s.sendSyncInterest cc = .ok s1 from h1)
        exact hn
      | stop => simp only [call, Res.ok.injEq] at h1; subst h1; exact hn
    · intro p q cb hmem
      rw [(went_call h1).iblt]
      exact hc p q cb (List.mem_cons_of_mem _ hmem)

end Cons

/-! ### Runs -/

namespace Spec.PSRun

variable {pc : Cfg} {cc : CCfg} {P : Nat → Part} {C : Nat → Cons} {what : Nat → PSEv} {len : Nat}

theorem reachP (h : PSRun pc cc P C what len) : ∀ {n}, n ≤ len → Part.Reach pc (P n) := by
  intro n
  induction n with
  | zero => intro _; rw [h.initP]; exact ⟨[], rfl⟩
  | succ n ih =>
    intro hn
    cases h.step n (by omega) with
    | prod op _ hs _ => exact (ih (by omega)).next hs
    | cons op _ _ hs _ _ => rw [hs]; exact ih (by omega)

theorem momentC (h : PSRun pc cc P C what len) : ∀ {n}, n ≤ len → Cons.Moment cc (C n) := by
  intro n
  induction n with
  | zero => intro _; exact ⟨C 0, h.initC, .refl⟩
  | succ n ih =>
    intro hn
    cases h.step n (by omega) with
    | prod op _ _ hs => rw [hs]; exact ih (by omega)
    | cons op _ hs _ _ _ => exact (ih (by omega)).trans (Cons.step_micros hs)

theorem later (h : PSRun pc cc P C what len) {m n : Nat} (hmn : m ≤ n) (hn : n ≤ len) :
    (P m).replies <+: (P n).replies ∧ (P m).made <+: (P n).made := by
  induction n, hmn using Nat.le_induction with
  | base => exact ⟨List.prefix_refl _, List.prefix_refl _⟩
  | succ n hmn ih =>
    obtain ⟨i1, i2⟩ := ih (by omega)
    cases h.step n (by omega) with
    | prod op _ hs _ =>
      have := Part.step_micro (Part.reach_parked (h.reachP (n := n) (by omega))) hs
      exact ⟨i1.trans this.replies, i2.trans this.made⟩
    | cons op _ _ hs _ _ => rw [hs]; exact ⟨i1, i2⟩

/-- The tables of the run. -/
def Tables (P : Nat → Part) (len : Nat) (b : Base) : Prop := ∃ r ≤ len, b = (P r).base

theorem comparable (h : PSRun pc cc P C what len) (hr : Regular pc P what len) :
    Comparable pc.expected (Tables P len) := by
  have src : ∀ r ≤ len, TableSourced (fun p q => (p, q) ∈ (P len).made) (P r).base := fun r hle =>
    (Part.reach_sourced (h.reachP hle)).mono (fun p q hm => (h.later hle (le_refl _)).2.subset hm)
  refine ⟨?_, ?_, ?_⟩
  · rintro b ⟨r, hle, rfl⟩; exact Part.reach_inv (h.reachP hle)
  · rintro b ⟨r, hle, rfl⟩; exact Part.reach_exact (h.reachP hle) (collisionFree_of hr.collisions (src r hle))
  · rintro b b' ⟨r, hle, rfl⟩ ⟨r', hle', rfl⟩; exact noCollisions_of hr.collisions (src r hle) (src r' hle')

theorem sendable (h : PSRun pc cc P C what len) (hm : Matching pc cc) : Cons.Sendable pc (Tables P len) := by
  rintro b ⟨r, hle, rfl⟩ c hc
  have hr := (Part.reach_steps (h.reachP hle)).ranged hm.expected (Base.ranged_new pc)
  obtain ⟨c', h1, h2⟩ := c02_round_trip pc.ibltCodec hm.codec pc.expected (P r).base.iblt (by rw [nCells_eq]; exact hr.1) hr.2
  rw [hc] at h1
  cases h1
  exact h2

theorem idle (h : PSRun pc cc P C what len) (hm : Matching pc cc) (hr : Regular pc P what len) : ∀ {n}, n ≤ len →
    Part.ParkedIdle (Tables P len) (P n) := by
  intro n
  induction n with
  | zero => intro _ k e hk; rw [h.initP] at hk; simp [Part.init] at hk
  | succ n ih =>
    intro hn
    cases h.step n (by omega) with
    | prod op _ hs _ =>
      exact Part.step_idle (h.comparable hr) hm.expected (h.reachP (by omega)) ⟨n, by omega, rfl⟩ (ih (by omega)) hs
    | cons op _ _ hs _ _ => rw [hs]; exact ih (by omega)

theorem replies (h : PSRun pc cc P C what len) (hm : Matching pc cc) (hr : Regular pc P what len) : ∀ {n}, n ≤ len →
    ∀ e ∈ (P n).replies, ∃ b, Tables P len b ∧ Part.ReplyMade pc (Tables P len) b e.1 e.2.1 := by
  intro n
  induction n with
  | zero => intro _ e he; rw [h.initP] at he; simp [Part.init] at he
  | succ n ih =>
    intro hn e he
    cases h.step n (by omega) with
    | prod op _ hs _ =>
      rcases Part.step_replies (h.comparable hr) hm.expected (h.reachP (n := n) (by omega)) (h.idle hm hr (by omega)) hs ⟨n + 1, hn, rfl⟩ he with h1 | h1
      · exact ih (by omega) e h1
      · exact ⟨_, ⟨n + 1, hn, rfl⟩, h1⟩
    | cons op _ _ hs _ _ => rw [hs] at he; exact ih (by omega) e he

theorem valid (h : PSRun pc cc P C what len) (hr : Regular pc P what len) : ∀ {n}, n ≤ len → ∀ {p x},
    (P n).base.getSeqNo p = some x → p.Valid := by
  intro n
  induction n with
  | zero => intro _ p x hp; rw [h.initP] at hp; simp [Part.init, Base.new, Base.getSeqNo] at hp
  | succ n ih =>
    intro hn p x hp
    cases h.step n (by omega) with
    | prod op hw hs _ =>
      rcases Part.step_registers hs hp with ⟨y, h1⟩ | rfl
      · exact ih (by omega) h1
      · exact hr.names n (by omega) p hw
    | cons op _ _ hs _ _ => rw [hs] at hp; exact ih (by omega) hp

theorem askedC (h : PSRun pc cc P C what len) {n : Nat} (hn : n < len) (pre : Name) :
    askedUnder pre (C n).log <+: askedUnder pre (C (n + 1)).log := by
  cases h.step n hn with
  | prod op _ _ hs => rw [hs]; exact List.prefix_refl _
  | cons op _ hs _ _ _ => exact Cons.step_asked hs pre

/-- The reply delivered by a completed fetch: its name and content, and the packet that decided the data name. -/
theorem delivered (h : PSRun pc cc P C what len) (hr : Regular pc P what len) {n : Nat} (hn : n ≤ len) {name : Name}
    {segs : List Data} {buf : Bytes} (hf : Fetched (fun d => Out.data d ∈ (P n).log) name segs buf) :
    (∀ d ∈ segs, d.contentType = .nack ∧ ∃ key bf t bs, SyncFields pc key bf t ∧ d.name = key ++ [⟨8, bs⟩] ++ [⟨50, nniBytes 0⟩]) ∨
    ∃ nm, (∃ fr, (nm, buf, fr) ∈ (P n).replies) ∧ (∃ v g, name <+: nm ++ [v] ++ [g]) ∧
      ∀ d ∈ segs, d.contentType = .blob ∧ Name.dropLast d.name 2 = nm ∧ ∃ v g, d.name = nm ++ [v, g] := by
  rcases fetched_one (h.reachP hn) (h.later hn (le_refl _)).1 hr.buffers hr.version_lt hr.versions hf with h1 | ⟨k, e, h1, h2, h3⟩
  · exact .inl h1
  · right
    have hsp := segmentData_spec (e.1.appendVersion (pc.version k)) e.2.1 e.2.2
    refine ⟨e.1, ⟨e.2.2, ?_⟩, ?_, ?_⟩
    · rw [h3]; exact List.mem_of_getElem? h1
    · obtain ⟨d, hd, hp⟩ := hf.first
      rw [h2] at hd
      rw [hsp.name 0 d hd] at hp
      exact ⟨_, _, hp⟩
    · intro d hd
      rw [h2] at hd
      obtain ⟨i, hi⟩ := List.mem_iff_getElem?.mp hd
      refine ⟨(hsp.fresh d hd).2, ?_, ?_⟩
      · rw [hsp.name i d hi]
        unfold Name.appendVersion Name.dropLast
        simp
      · rw [hsp.name i d hi]
        exact ⟨_, _, by unfold Name.appendVersion; rw [List.append_assoc]; rfl⟩

/-- What happens after the last new Interest under `pre`. -/
theorem asked_since (h : PSRun pc cc P C what len) {pre : Name} {m s : Nat} (hm : m < len)
    (h1 : askedUnder pre (C m).log ≠ askedUnder pre (C (m + 1)).log)
    (h2 : askedUnder pre (C s).log = askedUnder pre (C (m + 1)).log) : m < s := by
  by_contra hlt
  have up : ∀ {a b}, a ≤ b → b ≤ len → askedUnder pre (C a).log <+: askedUnder pre (C b).log := by
    intro a b hab hb
    induction b, hab using Nat.le_induction with
    | base => exact List.prefix_refl _
    | succ b hab ih => exact (ih (by omega)).trans (h.askedC (by omega) pre)
  have p1 := (up (a := s) (b := m) (by omega) (by omega)).length_le
  rw [h2] at p1
  exact h1 ((up (a := m) (b := m + 1) (by omega) (by omega)).eq_of_length_le p1)

/-- The packet that decided the name and kind of the reply, among the packets received since the last sync Interest. -/
theorem sync_last (h : PSRun pc cc P C what len) {n : Nat} (hn : n ≤ len)
    {buf : Bytes} (hact : (C n).syncFetcher = some true)
    (hd : FetchDone (fun d => Out.data d ∈ (P n).log) C what (cc.syncPrefix ++ [SYNC]) .syncSegment n buf) :
    ∃ name segs, (askedUnder (cc.syncPrefix ++ [SYNC]) (C n).log).getLast? = some name ∧
      Fetched (fun d => Out.data d ∈ (P n).log) name segs buf ∧
      (∀ s < n, ∀ d, what s = .cons (.syncSegment d) → askedUnder (cc.syncPrefix ++ [SYNC]) (C s).log =
        askedUnder (cc.syncPrefix ++ [SYNC]) (C n).log → d ∈ segs) ∧
      ∃ k < n, ∃ d ∈ segs, what k = .cons (.syncSegment d) ∧ (C n).syncDataName = Name.dropLast d.name 2 ∧
        (C n).contentType = d.contentType := by
  obtain ⟨m, hmn, name, segs, h1, h2, h3, h4, h5⟩ := hd
  have hw := window_last (fun k => (C k).syncFetcher = some true) (fun k => askedUnder (cc.syncPrefix ++ [SYNC]) (C k).log)
    (fun k => ((C k).syncDataName, (C k).contentType)) (fun k d => what k = .cons (.syncSegment d))
    (fun d x => x = (Name.dropLast d.name 2, d.contentType)) m n (by omega)
    (fun k _ hk => h.askedC (by omega) _)
    (fun k _ hk ha he => by
      cases h.step k (by omega) with
      | prod op hw _ hs =>
        rw [hs] at ha ⊢
        exact ⟨ha, .inr ⟨rfl, fun d hd => by rw [hw] at hd; cases hd⟩⟩
      | cons op hw hs _ _ _ =>
        obtain ⟨a, ⟨d, rfl, e1, e2⟩ | ⟨e1, e2, e3⟩⟩ := Cons.sync_window hs ha he
        · exact ⟨a, .inl ⟨d, hw, by rw [e1, e2]⟩⟩
        · refine ⟨a, .inr ⟨by rw [e1, e2], fun d hd => e3 d ?_⟩⟩
          rw [hw] at hd
          cases hd
          rfl)
    hact h2
  rcases hw with ⟨k, d, k1, k2, k3, k4⟩ | hno
  swap
  · obtain ⟨d, hd, hfb⟩ := h4.final
    obtain ⟨k, k1, k2, k3⟩ := (h5 d).mp hd
    rw [hno k d k1 k2 k3] at hfb
    cases hfb
  simp only [Prod.mk.injEq] at k4
  refine ⟨name, segs, h3, h4, fun s hs d hd he => (h5 d).mpr ⟨s, h.asked_since (by omega) h1 ?_, hs, hd⟩, k, k2, d,
    (h5 d).mpr ⟨k, k1, k2, k3⟩, k3, k4.1, k4.2⟩
  rw [he, h2]

/-- What a completed sync fetch delivers. -/
theorem sync_delivered (h : PSRun pc cc P C what len) (hm : Matching pc cc) (hr : Regular pc P what len) {n : Nat} (hn : n ≤ len)
    {buf : Bytes} (hact : (C n).syncFetcher = some true) (hkind : (C n).contentType ≠ .nack)
    (hd : FetchDone (fun d => Out.data d ∈ (P n).log) C what (cc.syncPrefix ++ [SYNC]) .syncSegment n buf)
    {name : Name} {bf : Bloom} {t : Table} (hname : (askedUnder (cc.syncPrefix ++ [SYNC]) (C n).log).getLast? = some name)
    (hfields : SyncFields pc name bf t) :
    ∃ b c content, Tables P len b ∧ b.iblt.toComponent pc.ibltCodec = .ok c ∧ (C n).syncDataName = name ++ [c] ∧
      buf = encodeNames content ∧ buf.length < 2 ^ 64 ∧
      (∀ n ∈ content, ∃ p x, b.getSeqNo p = some x ∧ n = Name.appendNumber p x) ∧ Covered (Tables P len) b bf t content ∧
      (∀ s < n, ∀ d, what s = .cons (.syncSegment d) → askedUnder (cc.syncPrefix ++ [SYNC]) (C s).log =
        askedUnder (cc.syncPrefix ++ [SYNC]) (C n).log → ∃ v g, d.name = name ++ [c, v, g]) ∧
      ∃ k < n, ∃ d, what k = .cons (.syncSegment d) ∧ Out.data d ∈ (P n).log ∧ ∃ v g, d.name = name ++ [c, v, g] := by
  obtain ⟨name', segs, h3, h4, h5, k, k2, d, hdm, k3, k4⟩ := h.sync_last hn hact hd
  rw [hname] at h3
  cases h3
  rcases h.delivered hr hn h4 with h6 | ⟨nm, ⟨fr, hrep⟩, ⟨v, g, hpre⟩, hall⟩
  · rw [(h6 d hdm).1] at k4
    exact absurd k4.2 hkind
  · obtain ⟨b, hb, hmade⟩ := h.replies hm hr hn _ hrep
    have hlen := hr.buffers _ ((h.later hn (le_refl _)).1.subset hrep)
    simp only at hmade hlen
    obtain ⟨c1, c2, c3, c4, cnt, fpp, en, _⟩ := id hfields
    cases hmade with
    | hello c hc =>
      exfalso
      rw [en] at hpre
      refine Cons.not_sync_hello pc.syncPrefix ([c] ++ [v] ++ [g]) (List.IsPrefix.trans ⟨[c1, c2, c3, c4], ?_⟩ (hpre.trans ⟨[], ?_⟩))
      · simp
      · simp
    | sync c key bf' t' content hc hf' hnames hcov =>
      obtain ⟨d1, d2, d3, d4, cnt', fpp', en', _⟩ := id hf'
      have heq : name = key := by
        have h7 : name <+: key ++ ([c] ++ [v] ++ [g]) := by simpa using hpre
        have h8 : key <+: key ++ ([c] ++ [v] ++ [g]) := List.prefix_append _ _
        refine (List.prefix_of_prefix_length_le h7 h8 ?_).eq_of_length ?_ <;> rw [en, en'] <;> simp
      subst heq
      obtain ⟨rfl, rfl⟩ := Part.syncFields_unique hfields hf'
      have hnm : ∀ d ∈ segs, ∃ v g, d.name = name ++ [c, v, g] := fun d hd =>
        (hall d hd).2.2.imp fun v hv => hv.imp fun g hg => by rw [hg]; simp
      refine ⟨b, c, content, hb, hc, ?_, rfl, hlen, hnames, hcov, fun s hs d hd he => hnm d (h5 s hs d hd he),
        k, k2, d, k3, h4.packets d hdm, hnm d hdm⟩
      rw [k4.1]
      exact (hall d hdm).2.1

/-- What a completed hello fetch delivers. -/
theorem hello_delivered (h : PSRun pc cc P C what len) (hm : Matching pc cc) (hr : Regular pc P what len) {n : Nat} (hn : n ≤ len)
    {buf : Bytes} (hact : (C n).helloFetcher = some true)
    (hd : FetchDone (fun d => Out.data d ∈ (P n).log) C what (cc.syncPrefix ++ [HELLO]) .helloSegment n buf) :
    ∃ b c, Tables P len b ∧ b.iblt.toComponent pc.ibltCodec = .ok c ∧ (C n).helloDataName = pc.syncPrefix ++ [HELLO, c] ∧
      buf = encodeNames (Part.helloContent b) ∧ buf.length < 2 ^ 64 ∧
      (∀ s < n, ∀ d, what s = .cons (.helloSegment d) → askedUnder (cc.syncPrefix ++ [HELLO]) (C s).log =
        askedUnder (cc.syncPrefix ++ [HELLO]) (C n).log → ∃ v g, d.name = pc.syncPrefix ++ [HELLO, c, v, g]) ∧
      ∃ k < n, ∃ d, what k = .cons (.helloSegment d) ∧ Out.data d ∈ (P n).log ∧ ∃ v g, d.name = pc.syncPrefix ++ [HELLO, c, v, g] := by
  obtain ⟨m, hmn, name, segs, h1, h2, h3, h4, h5⟩ := hd
  have hname : (pc.syncPrefix ++ [HELLO]) <+: name := by
    have := List.mem_of_getLast? h3
    simp only [askedUnder, List.mem_filterMap] at this
    obtain ⟨o, _, ho⟩ := this
    split at ho
    · split at ho
      · rename_i hp
        cases ho
        rw [← hm.syncPrefix]
        exact List.isPrefixOf_iff_prefix.mp hp
      · cases ho
    · cases ho
  have hw := window_last (fun k => (C k).helloFetcher = some true) (fun k => askedUnder (cc.syncPrefix ++ [HELLO]) (C k).log)
    (fun k => (C k).helloDataName) (fun k d => what k = .cons (.helloSegment d))
    (fun d x => x = Name.dropLast d.name 2) m n (by omega)
    (fun k _ hk => h.askedC (by omega) _)
    (fun k _ hk ha he => by
      cases h.step k (by omega) with
      | prod op hw _ hs =>
        rw [hs] at ha ⊢
        exact ⟨ha, .inr ⟨rfl, fun d hd => by rw [hw] at hd; cases hd⟩⟩
      | cons op hw hs _ _ _ =>
        obtain ⟨a, ⟨d, rfl, e1⟩ | ⟨e1, e3⟩⟩ := Cons.hello_window hs ha he
        · exact ⟨a, .inl ⟨d, hw, e1⟩⟩
        · refine ⟨a, .inr ⟨e1, fun d hd => e3 d ?_⟩⟩
          rw [hw] at hd
          cases hd
          rfl)
    hact h2
  rcases hw with ⟨k, d, k1, k2, k3, k4⟩ | hno
  swap
  · obtain ⟨d, hd, hfb⟩ := h4.final
    obtain ⟨k, k1, k2, k3⟩ := (h5 d).mp hd
    rw [hno k d k1 k2 k3] at hfb
    cases hfb
  have hdm : d ∈ segs := (h5 d).mpr ⟨k, k1, k2, k3⟩
  rcases h.delivered hr hn h4 with h6 | ⟨nm, ⟨fr, hrep⟩, ⟨v, g, hpre⟩, hall⟩
  · exfalso
    obtain ⟨d0, hd0, hp⟩ := h4.first
    obtain ⟨_, key, bf, t, bs, ⟨c1, c2, c3, c4, _, _, en, _⟩, hnm⟩ := h6 d0 (List.mem_of_getElem? hd0)
    rw [hnm, en] at hp
    exact Cons.not_hello_sync pc.syncPrefix [c1, c2, c3, c4, ⟨8, bs⟩, ⟨50, nniBytes 0⟩] ((hname.trans hp).trans ⟨[], by simp⟩)
  · obtain ⟨b, hb, hmade⟩ := h.replies hm hr hn _ hrep
    have hlen := hr.buffers _ ((h.later hn (le_refl _)).1.subset hrep)
    simp only at hmade hlen
    cases hmade with
    | hello c hc =>
      have hnm : ∀ d ∈ segs, ∃ v g, d.name = pc.syncPrefix ++ [HELLO, c, v, g] := fun d hd =>
        (hall d hd).2.2.imp fun v hv => hv.imp fun g hg => by rw [hg]; simp
      exact ⟨b, c, hb, hc, by rw [k4]; exact (hall d hdm).2.1, rfl, hlen,
        fun s hs d hd he => hnm d ((h5 d).mpr ⟨s, h.asked_since (by omega) h1 (he.trans h2), hs, hd⟩),
        k, k2, d, k3, h4.packets d hdm, hnm d hdm⟩
    | sync c key bf' t' content hc hf' hnames hcov =>
      exfalso
      obtain ⟨d1, d2, d3, d4, cnt', fpp', en', _⟩ := id hf'
      rw [en'] at hpre
      exact Cons.not_hello_sync pc.syncPrefix [d1, d2, d3, d4, c, v, g] ((hname.trans hpre).trans ⟨[], by simp⟩)

theorem decoded (h : PSRun pc cc P C what len) (hr : Regular pc P what len) {b : Base} (hb : Tables P len b) {content : List Name}
    (hc : ∀ n ∈ content, ∃ p x, b.getSeqNo p = some x ∧ n = Name.appendNumber p x)
    (hl : (encodeNames content).length < 2 ^ 64) {st : StateMsg} (hst : StateMsg.wireDecode (encodeNames content) = .ok st) :
    st.content = content := by
  rw [wireDecode_encodeNames content (fun n hn => by
    obtain ⟨p, x, h1, rfl⟩ := hc n hn
    obtain ⟨r, hle, rfl⟩ := hb
    exact appendNumber_valid (h.valid hr hle h1) x) (by omega)] at hst
  cases hst
  rfl

open Cons in
/-- The consumer is up to date with the IBF it holds and with the one it has sent. -/
theorem held (h : PSRun pc cc P C what len) (hm : Matching pc cc) (hr : Regular pc P what len) (hc : Careful pc P C what len) :
    ∀ {n}, n ≤ len → Held pc (Tables P len) (C n) ∧ Flying pc cc (Tables P len) (C n) := by
  intro n
  induction n with
  | zero =>
    intro _
    have hi := h.initC
    unfold Cons.init at hi
    simp only [Res.bind_eq_ok, Res.ok.injEq] at hi
    obtain ⟨bf, _, e⟩ := hi
    rw [← e]
    exact ⟨.inl rfl, fun hf => by simp at hf⟩
  | succ n ih =>
    intro hn
    obtain ⟨hH, hF⟩ := ih (by omega)
    have hG := h.sendable hm
    have hM := h.momentC (n := n) (by omega)
    cases h.step n (by omega) with
    | prod op _ _ hs => rw [hs]; exact ⟨hH, hF⟩
    | cons op hw hs _ hsync hhello =>
      have hin := hc.inTime n (by omega) op hw
      have hcur : ∀ p q cb, Call.addSubscription p q cb ∈ callsIn op → Current pc (Tables P len) (C (n + 1)).iblt p q := by
        rintro p q cb hmem b ⟨r, hle, rfl⟩ c hcomp hib x hx
        exact hc.current n (by omega) op p q cb hw hmem r hle ⟨c, hcomp, hib⟩ x hx
      have hgr : ∀ {s' : Cons}, s'.iblt = (C n).iblt → s'.subs = (C n).subs → s'.prefixes = (C n).prefixes → s'.log = (C n).log →
          (s'.syncFetcher = some true → (C n).syncFetcher = some true) → Held pc (Tables P len) s' ∧ Flying pc cc (Tables P len) s' :=
        fun e1 e2 e3 e4 e5 => ⟨hH.grows e1 (Grows.of_eq e2 e3), hF.grows e5 (by rw [e4]) (Grows.of_eq e2 e3)⟩
      generalize C (n + 1) = s' at hs hcur ⊢
      cases op with
      | call c =>
        have hw := went_call (show call cc (C n) c = .ok s' from hs)
        have := calls_held hm hG [] (cs := [c]) (s := C n) (s' := s') hM hH hF hin (fun p q cb hmem => by
          rw [← hw.iblt]
          exact hcur p q cb hmem) (by
            have hs : call cc (C n) c = .ok s' := hs
            simp [foldRes, hs, Res.bind])
        exact ⟨this.2.1, this.2.2.1⟩
      | helloSegment d =>
        simp only [Cons.step] at hs
        split at hs
        · cases hs
          split
          · exact hgr rfl rfl rfl rfl (fun h => h)
          · exact ⟨hH, hF⟩
        · cases hs; exact ⟨hH, hF⟩
      | helloComplete buf a1 a2 =>
        simp only [Cons.step] at hs
        split at hs
        swap
        · cases hs; exact ⟨hH, hF⟩
        rename_i hact
        obtain ⟨b, c, hb, hcomp, hnm, rfl, hlen, _⟩ := h.hello_delivered hm hr (by omega) hact (hhello buf a1 a2 rfl)
        have hib := onHelloData_went hs
        unfold onHelloData at hs
        simp only [Res.bind_eq_ok] at hs
        obtain ⟨st, hst, r, hfold, s1, h1, h2⟩ := hs
        obtain ⟨st', r', hst', hfold', hwent⟩ := hib
        have hib : s'.iblt = [c] := by
          rw [hwent.iblt]
          simp [hnm]
        have hcont := h.decoded hr hb (fun n hn => (helloContent_spec ((h.comparable hr).inv b hb) n).mp hn) hlen hst
        rw [hcont] at hfold
        obtain ⟨_, _, hinv⟩ := hM.inv
        have hbest := fun p => (hello_best p (a := ((C n).prefixes, [], [])) (subs := (C n).subs) hinv.sub hfold).1
        have hg : ∀ p, (C n).isSubscribed p = true → ∀ y, (C n).getSeqNo p = some y → ∃ y', r.1.find p = some y' ∧ y ≤ y' := by
          intro p hp y hy
          have := hbest p
          unfold isSubscribed at hp
          rw [if_pos hp] at this
          rw [this]
          unfold getSeqNo at hy
          rw [hy]
          exact best_ge_old
        have hup : ∀ p x, (C n).isSubscribed p = true → b.getSeqNo p = some x → ∃ y, r.1.find p = some y ∧ x ≤ y := by
          intro p x hp hx
          have := hbest p
          unfold isSubscribed at hp
          rw [if_pos hp] at this
          rw [this]
          refine best_ge_mem (List.mem_filterMap.mpr ⟨_, (helloContent_spec ((h.comparable hr).inv b hb) _).mpr ⟨p, x, hx, rfl⟩, ?_⟩)
          exact announced_appendNumber p x (((h.comparable hr).inv b hb).lt p x hx)
        -- the state in which the hello callback runs
        obtain ⟨s0, hs0, hM0, e1, e2, e3, e4, e5⟩ : ∃ s0 : Cons, foldRes (call cc) s0 a1 = .ok s1 ∧ Moment cc s0 ∧ s0.iblt = [c] ∧ s0.subs = (C n).subs ∧
            s0.prefixes = r.1 ∧ s0.syncFetcher = (C n).syncFetcher ∧
            askedUnder (cc.syncPrefix ++ [SYNC]) s0.log = askedUnder (cc.syncPrefix ++ [SYNC]) (C n).log := by
          refine ⟨_, h1, ?_, ?_, rfl, rfl, rfl, ?_⟩
          · refine hM.trans (C := fun _ => True) (((Relation.ReflTransGen.single (.internal (s' := { C n with helloFetcher := some false })
              rfl rfl rfl rfl rfl)).tail (.helloData (Part.helloContent b) r _ hfold)).tail (.hello _ r.2.2))
          · simp [emit, hnm]
          · simp [emit, askedUnder]
        have hg0 : Grows (C n) s0 := by
          intro p hp
          simp only [isSubscribed, e2] at hp
          refine ⟨hp, fun y hy => ?_⟩
          obtain ⟨y', h5, h6⟩ := hg p hp y hy
          exact ⟨y', by rw [getSeqNo, e3]; exact h5, h6⟩
        have hH0 : Held pc (Tables P len) s0 := by
          refine .inr ⟨b, c, hb, hcomp, e1, fun p x hp hx => ?_⟩
          simp only [isSubscribed, e2] at hp
          simp only [getSeqNo, e3]
          exact hup p x hp hx
        have hF0 : Flying pc cc (Tables P len) s0 := hF.grows (fun hf => e4 ▸ hf) e5 hg0
        obtain ⟨hM1, hH1, hF1, hn1⟩ := calls_held hm hG a2 hM0 hH0 hF0 (by rw [e4]; exact hin)
          (fun p q cb hmem => by rw [e1, ← hib]; exact hcur p q cb (List.mem_append_left _ hmem)) hs0
        split at h2
        · cases h2; exact ⟨hH1, hF1⟩
        · obtain ⟨_, hH2, hF2, _⟩ := calls_held hm hG [] (s := s1.emit (.update r.2.1)) (hM1.trans (C := fun _ => True) (.single (.notify _ _)))
            (hH1.grows rfl (Grows.of_eq rfl rfl)) (hF1.grows (fun h => h) (by simp [emit, askedUnder]) (Grows.of_eq rfl rfl))
            (by rw [List.append_nil]; exact hn1)
            (fun p q cb hmem => by
              have : (s1.emit (.update r.2.1)).iblt = s1.iblt := rfl
              rw [this, (went_calls hs0).iblt, e1, ← hib]
              exact hcur p q cb (List.mem_append_right _ hmem)) h2
          exact ⟨hH2, hF2⟩
      | helloError =>
        simp only [Cons.step] at hs
        split at hs
        · cases hs; exact hgr rfl rfl rfl rfl (fun h => h)
        · cases hs; exact ⟨hH, hF⟩
      | syncSegment d =>
        simp only [Cons.step] at hs
        split at hs
        · simp only [Res.ok.injEq] at hs
          obtain ⟨s1, e1, e2, e3, e4, e5, hs⟩ : ∃ s1 : Cons, s1.iblt = (C n).iblt ∧ s1.subs = (C n).subs ∧ s1.prefixes = (C n).prefixes ∧
              s1.log = (C n).log ∧ s1.syncFetcher = (C n).syncFetcher ∧
              (if s1.contentType = .nack then s1.sendHelloInterest cc else s1) = s' :=
            ⟨_, by split <;> rfl, by split <;> rfl, by split <;> rfl, by split <;> rfl, by split <;> rfl, hs⟩
          obtain ⟨hH1, hF1⟩ := hgr e1 e2 e3 e4 (fun h => e5 ▸ h)
          split at hs
          · subst hs
            refine ⟨hH1.grows rfl (Grows.of_eq rfl rfl), hF1.grows (fun h => h) ?_ (Grows.of_eq rfl rfl)⟩
            simp only [sendHelloInterest, askedUnder_append, helloPrefix]
            rw [askedUnder_miss (by have := not_sync_hello cc.syncPrefix []; rwa [List.append_nil] at this), List.append_nil]
          · subst hs; exact ⟨hH1, hF1⟩
        · cases hs; exact ⟨hH, hF⟩
      | syncComplete buf acts =>
        simp only [Cons.step] at hs
        split at hs
        swap
        · cases hs; exact ⟨hH, hF⟩
        rename_i hact
        split at hs
        · cases hs; exact hgr rfl rfl rfl rfl (fun h => by simp at h)
        rename_i hkind
        obtain ⟨name, bf, b0, f1, f2, f3, f4, f5, _⟩ := hF hact
        obtain ⟨b, c, content, hb, hcomp, hnm, rfl, hlen, hnames, hcov, _⟩ := h.sync_delivered hm hr (by omega) hact hkind
          (hsync buf acts rfl) f1 f2
        obtain ⟨_, _, _, _, hwent⟩ := onSyncData_went hs
        have hib : s'.iblt = [c] := by
          rw [hwent.iblt]
          simp [hnm]
        unfold onSyncData at hs
        simp only [Res.bind_eq_ok] at hs
        obtain ⟨st, hst, r, hfold, s1, h1, h2⟩ := hs
        rw [h.decoded hr hb hnames hlen hst] at hfold
        obtain ⟨_, _, hinv⟩ := hM.inv
        have hbest := fun p => sync_best p hfold
        have hcmp := h.comparable hr
        have hup : ∀ p x, (C n).isSubscribed p = true → b.getSeqNo p = some x → ∃ y, r.1.find p = some y ∧ x ≤ y := by
          intro p x hp hx
          rw [hbest p]
          obtain ⟨y0, hy0⟩ := Option.isSome_iff_exists.mp (hinv.sub p hp)
          simp only [hy0]
          by_cases hx0 : x = 0
          · obtain ⟨y, h5, _⟩ := best_ge_old (p := p) (x := y0) (ps := content.filterMap announced)
            exact ⟨y, h5, by omega⟩
          · by_cases hlive : IsLive b0.getSeqNo (Name.appendNumber p x)
            · obtain ⟨p', x', h5, h6, h7⟩ := hlive
              obtain ⟨rfl, rfl⟩ := appendNumber_inj' ((hcmp.inv b hb).lt p x hx) ((hcmp.inv b0 f3).lt p' x' h5) h7
              obtain ⟨y, h8, h9⟩ := f5 p x hp h5
              unfold getSeqNo at h8
              rw [hy0] at h8
              cases h8
              obtain ⟨y', h10, h11⟩ := best_ge_old (p := p) (x := y0) (ps := content.filterMap announced)
              exact ⟨y', h10, by omega⟩
            · have hin := hcov b0 f3 rfl p x hx hx0 hlive (f4 p hp)
              exact best_ge_mem (List.mem_filterMap.mpr ⟨_, hin, announced_appendNumber p x ((hcmp.inv b hb).lt p x hx)⟩)
        -- the state in which the update callback runs
        have hH0 : ∀ {s0 : Cons}, s0.iblt = [c] → s0.subs = (C n).subs → s0.prefixes = r.1 → Held pc (Tables P len) s0 := by
          intro s0 e1 e2 e3
          refine .inr ⟨b, c, hb, hcomp, e1, fun p x hp hx => ?_⟩
          simp only [isSubscribed, e2] at hp
          simp only [getSeqNo, e3]
          exact hup p x hp hx
        have hM0 := hM.trans (C := fun _ => True) ((Relation.ReflTransGen.single (.internal (s' := { C n with syncFetcher := some false })
              rfl rfl rfl rfl rfl)).tail (.syncData content r ((C n).syncDataName.drop ((C n).syncDataName.length - 1)) hfold))
        have hdrop : (C n).syncDataName.drop ((C n).syncDataName.length - 1) = [c] := by simp [hnm]
        split at h1
        · cases h1
          exact sendSync_flying hm hG hM0 (hH0 hdrop rfl rfl) h2
        · obtain ⟨hM1, hH1, _, _⟩ := calls_held hm hG [] (hM0.trans (C := fun _ => True) (.single (.notify _ r.2))) (hH0 hdrop rfl rfl)
            (fun hf => by simp [emit] at hf) (by rw [List.append_nil]; exact hin)
            (fun p q cb hmem => by
              have := hcur p q cb hmem
              rw [hib, ← hdrop] at this
              exact this) h1
          exact sendSync_flying hm hG hM1 hH1 h2
      | syncError t =>
        simp only [Cons.step] at hs
        split at hs
        · have hM1 : Moment cc { C n with syncFetcher := some false } := hM.trans (C := fun _ => True) (.single (.internal rfl rfl rfl rfl rfl))
          split at hs
          · exact sendSync_flying hm hG hM1 (hH.grows rfl (Grows.of_eq rfl rfl)) hs
          · cases hs; exact hgr rfl rfl rfl rfl (fun h => by simp at h)
        · cases hs; exact ⟨hH, hF⟩
      | tick t =>
        simp only [Cons.step, Res.ok.injEq] at hs
        subst hs
        split
        · exact hgr rfl rfl rfl rfl (fun h => h)
        · exact ⟨hH, hF⟩
      | fire =>
        simp only [Cons.step] at hs
        split at hs
        · cases hs; exact ⟨hH, hF⟩
        · rename_i ts _
          simp only [Res.ok.injEq] at hs
          subst hs
          refine ⟨hH.grows rfl (Grows.of_eq rfl rfl), hF.grows (fun h => h) ?_ (Grows.of_eq rfl rfl)⟩
          simp only [sendHelloInterest, askedUnder_append, helloPrefix]
          rw [askedUnder_miss (by have := not_sync_hello cc.syncPrefix []; rwa [List.append_nil] at this), List.append_nil]
        · rename_i ts _
          have hM1 : Moment cc { C n with timers := ts } := hM.trans (C := fun _ => True) (.single (.internal rfl rfl rfl rfl rfl))
          exact sendSync_flying hm hG hM1 (hH.grows rfl (Grows.of_eq rfl rfl)) hs

end Spec.PSRun
end PSync
