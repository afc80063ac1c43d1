import Verif.Spec.Partial
import Verif.Proofs.Partial
import Verif.Proofs.Complete
import Verif.Proofs.NoThrow
/-!
What a PartialProducer sends.
-/
namespace PSync
open Spec

theorem getFromEnd_mid (l : Name) (a : Component) (r : Name) : (l ++ a :: r).getFromEnd (r.length + 1) = .ok a := by
  unfold Name.getFromEnd
  have h0 : ((l ++ a :: r).length : Int) - ((r.length + 1 : Nat) : Int) = l.length := by simp
  have h1 : ¬ ((l.length : Int) < 0) := by omega
  simp only [h0, if_neg h1]
  rw [if_pos (by omega), Int.toNat_natCast, List.getElem?_append_right (le_refl _), Nat.sub_self]
  rfl

theorem dropLast_two (l : Name) (v g : Component) : Name.dropLast (l ++ [v, g]) 2 = l := by
  unfold Name.dropLast
  have h : (l ++ [v, g]).length - 2 = l.length := by simp
  rw [h, List.take_left, if_pos (by simp)]

theorem toNumber_ok {c : Component} {k : Nat} : c.toNumber = .ok k ↔ readNni c.value = some k := by
  unfold Component.toNumber Res.ofOption
  cases readNni c.value with
  | none => simp
  | some v => exact ⟨fun h => by cases h; rfl, fun h => by cases h; rfl⟩

namespace Part

theorem extract_four (l : Name) (c1 c2 c3 c4 : Component) (x : Nat × Nat × Component × Component) :
    extract (l ++ [c1, c2, c3, c4]) = .ok x ↔
      ∃ count fpp, readNni c1.value = some count ∧ readNni c2.value = some fpp ∧
        x = (count % 4294967296, fpp, c3, c4) := by
  have e4 := getFromEnd_mid l c1 [c2, c3, c4]
  have e3 := getFromEnd_mid (l ++ [c1]) c2 [c3, c4]
  have e2 := getFromEnd_mid (l ++ [c1, c2]) c3 [c4]
  have e1 := getFromEnd_mid (l ++ [c1, c2, c3]) c4 []
  simp only [List.append_assoc, List.cons_append, List.nil_append, List.length_cons, List.length_nil, Nat.zero_add,
    Nat.reduceAdd] at e4 e3 e2 e1
  unfold extract
  simp only [e4, e3, e2, e1, Res.ok_bind, Res.bind_eq_ok, toNumber_ok, Res.ok.injEq]
  constructor
  · rintro ⟨count, h1, fpp, h2, h3⟩; exact ⟨count, fpp, h1, h2, h3.symm⟩
  · rintro ⟨count, fpp, h1, h2, h3⟩; exact ⟨count, h1, fpp, h2, h3.symm⟩

theorem split_four {l m : Name} (h : l <+: m) (hn : (m.drop l.length).length = 4) :
    ∃ c1 c2 c3 c4, m = l ++ [c1, c2, c3, c4] := by
  obtain ⟨r, rfl⟩ := h
  rw [List.drop_left] at hn
  match r, hn with
  | [a, b, c, d], _ => exact ⟨a, b, c, d, rfl⟩

theorem split_six {l m : Name} (h : l <+: m) (hn : (m.drop l.length).length = 6) :
    ∃ c1 c2 c3 c4 v g, m = l ++ [c1, c2, c3, c4, v, g] := by
  obtain ⟨r, rfl⟩ := h
  rw [List.drop_left] at hn
  match r, hn with
  | [a, b, c, d, v, g], _ => exact ⟨a, b, c, d, v, g, rfl⟩

/-- A well-formed Interest that is not answered from the store reaches the comparison of the IBFs. -/
theorem onSyncInterest_wf {cfg : Cfg} {s : Part} {i : Interest} {key : Name} {bf : Bloom} {iblt : Table}
    (hst : s.pub.replyFromStore i.name = none) (hf : SyncFields cfg key bf iblt) (hk : AsksFor i.name key) :
    onSyncInterest cfg s i = onSyncParsed cfg s i key bf iblt := by
  obtain ⟨c1, c2, c3, c4, count, fpp, rfl, h1, h2, h3, h4⟩ := hf
  have hex : extract (cfg.syncPrefix ++ [SYNC, c1, c2, c3, c4]) = .ok (count % 4294967296, fpp, c3, c4) := by
    have := (extract_four (cfg.syncPrefix ++ [SYNC]) c1 c2 c3 c4 _).mpr ⟨count, fpp, h1, h2, rfl⟩
    rw [List.append_assoc] at this
    exact this
  have hd : ∀ r : Name, ((cfg.syncPrefix ++ SYNC :: r).drop (cfg.syncPrefix.length + 1)).length = r.length := by
    intro r
    rw [List.length_drop, List.length_append, List.length_cons]; omega
  unfold onSyncInterest
  simp only [hst]
  rcases hk with hk | ⟨v, g, hk⟩
  · rw [hk]
    have : ((cfg.syncPrefix ++ [SYNC, c1, c2, c3, c4]).drop (cfg.syncPrefix.length + 1)).length = 4 := hd _
    simp only [this, if_true]
    simp only [hex, h3, h4, Res.ok_bind]
    rw [if_neg (by omega)]
  · rw [hk]
    have : ((cfg.syncPrefix ++ [SYNC, c1, c2, c3, c4] ++ [v, g]).drop (cfg.syncPrefix.length + 1)).length = 6 := by simp
    have hdl := dropLast_two (cfg.syncPrefix ++ [SYNC, c1, c2, c3, c4]) v g
    simp only [this]
    rw [if_neg (by omega)]
    simp only [show ¬ ((6 : Nat) = 4) by omega, if_false, hdl, hex, h3, h4, Res.ok_bind]

/-- Otherwise nothing happens. -/
theorem onSyncInterest_cases' {cfg : Cfg} {s s' : Part} {i : Interest}
    (hp : (cfg.syncPrefix ++ [SYNC]) <+: i.name) (h : onSyncInterest cfg s i = .ok s') :
    (∃ d, s.pub.replyFromStore i.name = some d ∧ s' = s.emit (.data d)) ∨
    (s.pub.replyFromStore i.name = none ∧
      (s' = s ∨ ∃ key bf iblt, SyncFields cfg key bf iblt ∧ AsksFor i.name key ∧
        onSyncParsed cfg s i key bf iblt = .ok s')) := by
  rcases onSyncInterest_cases h with h1 | ⟨h0, h1 | ⟨n, count, fpp, c3, c4, bf, ib, hn, h1, h2, h3, h4⟩⟩
  · exact Or.inl h1
  · exact Or.inr ⟨h0, Or.inl h1⟩
  · refine Or.inr ⟨h0, Or.inr ⟨n, bf, ib, ?_, ?_, h4⟩⟩
    · have key : ∀ a1 a2 a3 a4, n = (cfg.syncPrefix ++ [SYNC]) ++ [a1, a2, a3, a4] → SyncFields cfg n bf ib := by
        rintro a1 a2 a3 a4 rfl
        obtain ⟨k, f, e1, e2, e3⟩ := (extract_four _ _ _ _ _ _).mp h1
        cases e3
        exact ⟨a1, a2, _, _, k, _, by rw [List.append_assoc]; rfl, e1, e2, h2, h3⟩
      rcases hn with ⟨hl, rfl⟩ | ⟨hl, rfl⟩
      · obtain ⟨a1, a2, a3, a4, e⟩ := split_four hp (by simpa using hl)
        exact key _ _ _ _ e
      · obtain ⟨a1, a2, a3, a4, v, g, e⟩ := split_six hp (by simpa using hl)
        refine key a1 a2 a3 a4 ?_
        rw [e, show (cfg.syncPrefix ++ [SYNC] ++ [a1, a2, a3, a4, v, g]) = (cfg.syncPrefix ++ [SYNC] ++ [a1, a2, a3, a4]) ++ [v, g] by simp,
          dropLast_two]
    · rcases hn with ⟨hl, rfl⟩ | ⟨hl, rfl⟩
      · exact Or.inl rfl
      · obtain ⟨a1, a2, a3, a4, v, g, e⟩ := split_six hp (by simpa using hl)
        refine Or.inr ⟨v, g, ?_⟩
        rw [e, show (cfg.syncPrefix ++ [SYNC] ++ [a1, a2, a3, a4, v, g]) = (cfg.syncPrefix ++ [SYNC] ++ [a1, a2, a3, a4]) ++ [v, g] by simp,
          dropLast_two]

theorem collect_spec {b : Base} {bf : Bloom} (hs : List U32) : ∀ (acc content : List Name),
    collect b bf hs acc = .ok content → ∀ n, n ∈ content ↔ n ∈ acc ∨
      ∃ k ∈ hs, b.biMap.findLeft k = some n ∧ bf.contains (Name.dropLast n 1) = .ok true := by
  induction hs with
  | nil =>
    intro acc content h n
    simp only [collect, Res.ok.injEq] at h
    subst h
    simp
  | cons k hs ih =>
    intro acc content h n
    unfold collect at h
    cases hk : b.biMap.findLeft k with
    | none =>
      simp only [hk] at h
      rw [ih _ _ h]
      simp [hk]
    | some m =>
      simp only [hk, Res.bind_eq_ok] at h
      obtain ⟨sub, h1, h2⟩ := h
      rw [ih _ _ h2]
      cases sub with
      | false =>
        simp only [Bool.false_eq_true, if_false, List.mem_cons, exists_eq_or_imp, hk, Option.some.injEq]
        constructor
        · rintro (h | h)
          · exact Or.inl h
          · exact Or.inr (Or.inr h)
        · rintro (h | ⟨rfl, h⟩ | h)
          · exact Or.inl h
          · rw [h1] at h; cases h
          · exact Or.inr h
      | true =>
        simp only [if_true, List.mem_append, List.mem_cons, exists_eq_or_imp, hk, Option.some.injEq, List.not_mem_nil, or_false]
        constructor
        · rintro ((h | rfl) | h)
          · exact Or.inl h
          · exact Or.inr (Or.inl ⟨rfl, h1⟩)
          · exact Or.inr (Or.inr h)
        · rintro (h | ⟨rfl, _⟩ | h)
          · exact Or.inl (Or.inl h)
          · exact Or.inl (Or.inr rfl)
          · exact Or.inr h

/-- The entry for a parked Interest. -/
def renewed (s : Part) (i : Interest) (key : Name) (bf : Bloom) (iblt : Table) : PPending :=
  let e : PPending := (s.pending.find key).getD ⟨bf, iblt, none, []⟩
  { e with timer := some (s.now + i.lifetime), expKey := i.name }

/-- What the comparison of the IBFs leads to. -/
theorem onSyncParsed_ok {cfg : Cfg} {s s' : Part} {i : Interest} {key : Name} {bf : Bloom} {iblt : Table}
    (h : onSyncParsed cfg s i key bf iblt = .ok s') :
    ∃ diff, Table.diff cfg.fuel s.base.iblt iblt = .ok diff ∧
    ((diff.canDecode = false ∧ ∃ d, nackData cfg s.base key = .ok d ∧ s' = s.emit (.data d)) ∨
     (diff.canDecode = true ∧ ∃ content, collect s.base bf diff.positive [] = .ok content ∧
      (((cfg.expected / 2 ≤ diff.positive.length + diff.negative.length ∨ content ≠ []) ∧
         ∃ c r, s.base.iblt.toComponent cfg.ibltCodec = .ok c ∧
          s.pub.publish cfg.imsLimit s.now (cfg.version s.replies.length) i.name (key ++ [c])
            (encodeNames content) cfg.freshness = .ok r ∧
          s' = { s with pub := r.1, replies := s.replies ++ [(key ++ [c], encodeNames content, cfg.freshness)],
                        log := s.log ++ r.2.map Out.data }) ∨
       (diff.positive.length + diff.negative.length < cfg.expected / 2 ∧ content = [] ∧
         s' = { s with pending := s.pending.set key (renewed s i key bf iblt) })))) := by
  unfold onSyncParsed at h
  simp only [Res.bind_eq_ok] at h
  obtain ⟨diff, hd, h⟩ := h
  refine ⟨diff, hd, ?_⟩
  cases hc : diff.canDecode with
  | false =>
    simp only [hc, Bool.not_false, if_true, Res.bind_eq_ok, Res.ok.injEq] at h
    obtain ⟨d, h1, rfl⟩ := h
    exact Or.inl ⟨rfl, d, h1, rfl⟩
  | true =>
    simp only [hc, Bool.not_true, Bool.false_eq_true, if_false, Res.bind_eq_ok] at h
    obtain ⟨content, hcn, h⟩ := h
    refine Or.inr ⟨rfl, content, hcn, ?_⟩
    split at h
    · rename_i ht
      left
      simp only [Res.bind_eq_ok] at h
      obtain ⟨c, h1, h2⟩ := h
      obtain ⟨r, h3, h4⟩ := publish_ok h2
      refine ⟨?_, c, r, h1, h3, h4⟩
      rw [Bool.or_eq_true, decide_eq_true_eq, Bool.not_eq_true', List.isEmpty_eq_false_iff] at ht
      exact ht
    · rename_i ht
      right
      rw [Bool.or_eq_true, decide_eq_true_eq, Bool.not_eq_true', List.isEmpty_eq_false_iff] at ht
      push Not at ht
      cases h
      exact ⟨ht.1, ht.2, rfl⟩

theorem publish_partReply {cfg : Cfg} {s : Part} {t : Table} {iname key : Name} {content : List Name} {c : Component}
    {r : SegPub × List Data} (hc : t.toComponent cfg.ibltCodec = .ok c)
    (h : s.pub.publish cfg.imsLimit s.now (cfg.version s.replies.length) iname (key ++ [c]) (encodeNames content)
      cfg.freshness = .ok r) : PartReply cfg t iname key content r.2 := ⟨c, hc, publish_sent h⟩

/-! ### Parked Interests -/

/-- The parked Interests are stored once each, in order, with the fields of their name. -/
structure Parked (cfg : Cfg) (s : Part) : Prop where
  sorted : NMap.Sorted s.pending
  fields : ∀ n e, s.pending.find n = some e → SyncFields cfg n e.bf e.iblt

theorem syncFields_unique {cfg : Cfg} {n : Name} {bf bf' : Bloom} {t t' : Table} (h : SyncFields cfg n bf t)
    (h' : SyncFields cfg n bf' t') : bf = bf' ∧ t = t' := by
  obtain ⟨c1, c2, c3, c4, k, f, e, h1, h2, h3, h4⟩ := h
  obtain ⟨d1, d2, d3, d4, k', f', e', h1', h2', h3', h4'⟩ := h'
  have e := List.append_cancel_left (e.symm.trans e')
  simp only [List.cons.injEq, true_and, and_true] at e
  obtain ⟨rfl, rfl, rfl, rfl⟩ := e
  rw [h1, Option.some.injEq] at h1'
  rw [h2, Option.some.injEq] at h2'
  subst h1' h2'
  rw [h3, Res.ok.injEq] at h3'
  rw [h4, Res.ok.injEq] at h4'
  exact ⟨h3', h4'⟩

theorem Parked.renewed {cfg : Cfg} {s : Part} (h : Parked cfg s) {i : Interest} {key : Name} {bf : Bloom} {iblt : Table}
    (hf : SyncFields cfg key bf iblt) :
    renewed s i key bf iblt = ⟨bf, iblt, some (s.now + i.lifetime), i.name⟩ := by
  unfold Part.renewed
  cases hk : s.pending.find key with
  | none => rfl
  | some e =>
    obtain ⟨h1, h2⟩ := syncFields_unique (h.fields key e hk) hf
    simp only [Option.getD_some]
    rw [h1, h2]

theorem Parked.congr {cfg : Cfg} {s s' : Part} (h : Parked cfg s) (he : s'.pending = s.pending) : Parked cfg s' :=
  ⟨he ▸ h.sorted, he ▸ h.fields⟩

theorem Parked.erase {cfg : Cfg} {s s' : Part} (h : Parked cfg s) {k : Name} (he : s'.pending = s.pending.erase k) :
    Parked cfg s' := by
  refine ⟨he ▸ NMap.sorted_erase h.sorted k, fun n e hn => h.fields n e ?_⟩
  rw [he, NMap.find_erase] at hn
  split at hn
  · cases hn
  · exact hn

theorem Parked.set {cfg : Cfg} {s s' : Part} (h : Parked cfg s) {k : Name} {v : PPending} (hv : SyncFields cfg k v.bf v.iblt)
    (he : s'.pending = s.pending.set k v) : Parked cfg s' := by
  refine ⟨he ▸ NMap.sorted_set h.sorted k v, fun n e hn => ?_⟩
  rw [he, NMap.find_set] at hn
  split at hn
  · rename_i hk
    cases hn
    rw [← hk]; exact hv
  · exact h.fields n e hn

theorem satisfyOne_parked {cfg : Cfg} {p : Name} {s s' : Part} {e : Name × PPending} (hs : Parked cfg s)
    (h : satisfyOne cfg p s e = .ok s') : Parked cfg s' := by
  obtain ⟨diff, _, ⟨_, rfl⟩ | ⟨_, sub, _, ⟨_, c, r, _, _, rfl⟩ | ⟨_, _, c, r, _, _, rfl⟩ | ⟨_, _, rfl⟩⟩⟩ := satisfyOne_ok h
  · exact hs.erase rfl
  · exact hs.erase rfl
  · exact hs.erase rfl
  · exact hs

theorem publishName_parked {cfg : Cfg} {p : Name} {seq : Option Nat} {s s' : Part} (hs : Parked cfg s)
    (h : publishName cfg s p seq = .ok s') : Parked cfg s' := by
  rcases publishName_ok h with ⟨_, rfl⟩ | ⟨cur, b, _, _, h2, _⟩
  · exact hs
  · exact foldRes_inv (P := fun a : Part => Parked cfg a) _ (fun _ _ _ _ ha h => satisfyOne_parked ha h)
      (hs.congr (s' := { s with base := b, made := s.made ++ [(p, Full.newSeq seq cur)] }) rfl) h2

theorem onHelloInterest_pending {cfg : Cfg} {s s' : Part} {i : Interest}
    (h : onHelloInterest cfg s i = .ok s') : s'.pending = s.pending := by
  unfold onHelloInterest at h
  split at h
  · cases h; rfl
  · simp only [Res.bind_eq_ok] at h
    obtain ⟨l, _, c4, _, h⟩ := h
    split at h
    · cases h; rfl
    · simp only [Res.bind_eq_ok] at h
      obtain ⟨c, _, h⟩ := h
      obtain ⟨r, _, rfl⟩ := publish_ok h
      rfl

theorem onSyncInterest_parked {cfg : Cfg} {s s' : Part} {i : Interest} (hs : Parked cfg s)
    (hp : (cfg.syncPrefix ++ [SYNC]) <+: i.name) (h : onSyncInterest cfg s i = .ok s') : Parked cfg s' := by
  rcases onSyncInterest_cases' hp h with ⟨d, _, rfl⟩ | ⟨_, rfl | ⟨key, bf, iblt, hf, _, h1⟩⟩
  · exact hs.congr rfl
  · exact hs
  · obtain ⟨diff, _, ⟨_, d, _, rfl⟩ | ⟨_, content, _, ⟨_, c, r, _, _, rfl⟩ | ⟨_, _, rfl⟩⟩⟩ := onSyncParsed_ok h1
    · exact hs.congr rfl
    · exact hs.congr rfl
    · refine hs.set ?_ rfl
      rw [hs.renewed hf]
      exact hf

theorem step_parked {cfg : Cfg} {s s' : Part} {op : Op} (hs : Parked cfg s) (h : step cfg s op = .ok s') : Parked cfg s' := by
  cases op with
  | addUserNode p => simp only [step, Res.ok.injEq] at h; subst h; exact hs.congr rfl
  | removeUserNode p =>
    simp only [step, Res.bind_eq_ok, Res.ok.injEq] at h
    obtain ⟨b, _, rfl⟩ := h
    exact hs.congr rfl
  | publishName p q => exact publishName_parked hs h
  | recvInterest i =>
    simp only [step] at h
    split at h
    · exact hs.congr (onHelloInterest_pending h)
    · split at h
      · rename_i hp
        exact onSyncInterest_parked hs (List.isPrefixOf_iff_prefix.mp hp) h
      · cases h; exact hs
  | tick t =>
    simp only [step, Res.ok.injEq] at h
    subst h
    split
    · exact hs.congr rfl
    · exact hs
  | expire n =>
    simp only [step] at h
    split at h
    · rename_i e he
      split at h
      · split at h
        · cases h
          exact (hs.set (s' := { s with pending := s.pending.set n { e with timer := none } }) (v := { e with timer := none }) (hs.fields n e he) rfl).erase rfl
        · cases h; exact hs
      · cases h; exact hs
    · cases h; exact hs
  | fireStore => simp only [step, Res.ok.injEq] at h; subst h; exact hs.congr rfl

theorem reach_parked {cfg : Cfg} {s : Part} (h : Reach cfg s) : Parked cfg s := by
  obtain ⟨ops, h⟩ := h
  exact foldRes_inv (P := fun a : Part => Parked cfg a) _ (fun _ _ _ _ ha h => step_parked ha h)
    ⟨NMap.sorted_nil, fun n e h => by cases h⟩ h

/-- The loop over the parked Interests. -/
theorem satisfy_served {cfg : Cfg} {p : Name} {x : Nat} {t : Table} (es : List (Name × PPending)) :
    ∀ (kept : List (Name × PPending)) {s s' : Part}, s.base.iblt = t → s.base.prefixes.find p = some x →
      s.pending = kept ++ es → NMap.Sorted s.pending → foldRes (satisfyOne cfg p) s es = .ok s' →
      ∃ ds kept', Served cfg t p x es ds kept' ∧ s'.pending = kept ++ kept' ∧ s'.log = s.log ++ ds.map Out.data ∧
        s'.base = s.base := by
  induction es with
  | nil =>
    intro kept s s' _ _ hpend _ h
    simp only [foldRes, Res.ok.injEq] at h
    subst h
    exact ⟨[], [], .nil, hpend, by simp, rfl⟩
  | cons e es ih =>
    obtain ⟨n, e⟩ := e
    intro kept s s' ht hx hpend hsort h
    simp only [foldRes, Res.bind_eq_ok] at h
    obtain ⟨s1, h1, h2⟩ := h
    have her : s.pending.erase n = kept ++ es := by
      rw [hpend] at hsort ⊢
      unfold NMap.Sorted at hsort
      rw [List.pairwise_append] at hsort
      obtain ⟨_, ha, hb⟩ := hsort
      rw [List.pairwise_cons] at ha
      unfold NMap.erase
      rw [List.filter_append, List.filter_cons]
      have h3 : ∀ y ∈ kept, decide (y.1 ≠ n) = true := by
        intro y hy
        have := hb y hy (n, e) (List.mem_cons_self)
        rw [decide_eq_true_eq]
        rintro rfl
        rw [Name.lt_irrefl] at this
        cases this
      have h4 : ∀ y ∈ es, decide (y.1 ≠ n) = true := by
        intro y hy
        have := ha.1 y hy
        rw [decide_eq_true_eq]
        rintro rfl
        rw [Name.lt_irrefl] at this
        cases this
      rw [List.filter_eq_self.mpr h3, List.filter_eq_self.mpr h4]
      simp
    have hidx : s.base.index p = (x, s.base) := by
      unfold Base.index
      rw [hx]
    have hser := NMap.sorted_erase hsort n
    obtain ⟨diff, hd, ⟨hc, rfl⟩ | ⟨hc, sub, hsub, ⟨rfl, c, r, h3, h4, rfl⟩ | ⟨rfl, hth, c, r, h3, h4, rfl⟩ | ⟨rfl, hth, rfl⟩⟩⟩ := satisfyOne_ok h1
    · obtain ⟨ds, kept', i1, i2, i3, i4⟩ := ih kept (s := { s with pending := s.pending.erase n }) ht hx her hser h2
      exact ⟨ds, kept', .undecodable n e diff (ht ▸ hd) hc i1, i2, i3, i4⟩
    · simp only [hidx] at h2 h3 h4
      obtain ⟨ds, kept', i1, i2, i3, i4⟩ := ih kept (s := { s with
          pub := r.1, replies := s.replies ++ [(n ++ [c], encodeNames [Name.appendNumber p x], cfg.freshness)], log := s.log ++ r.2.map Out.data, pending := s.pending.erase n })
        ht hx her hser h2
      refine ⟨r.2 ++ ds, kept', .subscribed n e diff r.2 (ht ▸ hd) hc hsub ?_ i1, i2, ?_, i4⟩
      · rw [← ht]; exact publish_partReply h3 h4
      · rw [i3, List.map_append, List.append_assoc]
    · obtain ⟨ds, kept', i1, i2, i3, i4⟩ := ih kept (s := { s with
          pub := r.1, replies := s.replies ++ [(n ++ [c], encodeNames [], cfg.freshness)], log := s.log ++ r.2.map Out.data, pending := s.pending.erase n })
        ht hx her hser h2
      refine ⟨r.2 ++ ds, kept', .behind n e diff r.2 (ht ▸ hd) hc hsub hth ?_ i1, i2, ?_, i4⟩
      · rw [← ht]; exact publish_partReply h3 h4
      · rw [i3, List.map_append, List.append_assoc]
    · obtain ⟨ds, kept', i1, i2, i3, i4⟩ := ih (kept ++ [(n, e)]) ht hx (by rw [hpend]; simp) hsort h2
      exact ⟨ds, (n, e) :: kept', .keep n e diff (ht ▸ hd) hc hsub hth i1, by rw [i2]; simp, i3, i4⟩

end Part
end PSync
