import Verif.Proofs.Safe
import Verif.Proofs.PubSubProducer
/-!
A PartialProducer that holds, has published and has parked only numbers of a given set does not fail on the
Interests of honest consumers.
-/
namespace PSync
open Spec Base

/-- A filter that can be asked for any name. -/
def Usable (bf : Bloom) : Prop := ∀ p, ∃ r, bf.contains p = .ok r

namespace Part

/-- The name of a sync Interest that carries a usable filter and an IBF of names with numbers in `K`. -/
def GoodName (K : Name → Nat → Prop) (cfg : Cfg) (n : Name) : Prop :=
  ∃ bf t, SyncFields cfg n bf t ∧ Usable bf ∧ OkTable K cfg.expected t

/-- A producer that holds and has parked only numbers in `K`. -/
structure Safe (K : Name → Nat → Prop) (cfg : Cfg) (s : Part) : Prop where
  base : OkBase K cfg.expected s.base
  pend : ∀ x ∈ s.pending, x.1 ≠ [] ∧ Usable x.2.bf ∧ OkTable K cfg.expected x.2.iblt
  made : ∀ x ∈ s.made, K x.1 x.2

/-- What is assumed of the settings and of the numbers. -/
structure Calm (K : Name → Nat → Prop) (cfg : Cfg) : Prop where
  lossless : cfg.ibltCodec.Lossless
  pos : 0 < cfg.expected
  apart : NoCollisionsIn cfg.expected K
  fuel : ∀ A B, HashesOf K A → HashesOf K B → diffCount A B < cfg.fuel

variable {K : Name → Nat → Prop} {cfg : Cfg}

theorem publish_keeps {s s' : Part} {n dn : Name} {buf : Bytes} {fr : Nat} (h : publish cfg s n dn buf fr = .ok s') :
    s'.base = s.base ∧ s'.pending = s.pending ∧ s'.made = s.made := by
  unfold publish at h
  simp only [Res.bind_eq_ok, Res.ok.injEq] at h
  obtain ⟨r, _, rfl⟩ := h
  exact ⟨rfl, rfl, rfl⟩

theorem Safe.congr {s s' : Part} (h : Safe K cfg s) (h1 : s'.base = s.base) (h2 : s'.pending = s.pending)
    (h3 : s'.made = s.made) : Safe K cfg s' :=
  ⟨h1 ▸ h.base, h2 ▸ h.pend, h3 ▸ h.made⟩

theorem Safe.erase {s : Part} (h : Safe K cfg s) (n : Name) : Safe K cfg { s with pending := s.pending.erase n } :=
  ⟨h.base, fun x hx => h.pend x (List.mem_filter.mp hx).1, h.made⟩

theorem fold_safe {ι : Type} {f : Part → ι → Res Part} {Q : Part → Prop} (l : List ι)
    (h : ∀ s, Q s → ∀ x ∈ l, ∃ s', f s x = .ok s' ∧ Q s') : ∀ s, Q s → ∃ s', foldRes f s l = .ok s' ∧ Q s' := by
  induction l with
  | nil => exact fun s hs => ⟨s, rfl, hs⟩
  | cons x l ih =>
    intro s hs
    obtain ⟨s1, h1, h2⟩ := h s hs x (by simp)
    obtain ⟨s2, h3, h4⟩ := ih (fun s hs y hy => h s hs y (by simp [hy])) s1 h2
    exact ⟨s2, by simp only [foldRes, h1, Res.ok_bind, h3], h4⟩

theorem satisfyOne_safe (hc : Calm K cfg) {s : Part} (hs : Safe K cfg s) (p : Name) {x : Name × PPending}
    (hx : x.1 ≠ [] ∧ Usable x.2.bf ∧ OkTable K cfg.expected x.2.iblt) :
    ∃ s', satisfyOne cfg p s x = .ok s' ∧ Safe K cfg s' := by
  obtain ⟨hne, hu, hok⟩ := hx
  obtain ⟨df, hdf⟩ := diff_ok hc.pos hc.apart hc.fuel hs.base.table hok
  obtain ⟨sub, hsub⟩ := hu p
  unfold satisfyOne
  rw [hdf, Res.ok_bind]
  split
  · exact ⟨_, rfl, hs.erase _⟩
  · rw [hsub, Res.ok_bind]
    split
    · generalize hib : (if sub = true then s.base.index p else (0, s.base)) = ib
      obtain ⟨seq, b⟩ := ib
      have hb : OkBase K cfg.expected b := by
        split at hib
        · have := hs.base.index p
          rw [hib] at this
          exact this
        · cases hib; exact hs.base
      simp only
      have hs1 : Safe K cfg { s with base := b } := ⟨hb, hs.pend, hs.made⟩
      obtain ⟨c, hcomp⟩ := toComponent_total hc.lossless b.iblt
      rw [hcomp, Res.ok_bind]
      obtain ⟨s2, h2⟩ := publish_total (cfg := cfg) (s := { s with base := b }) hne (x.1 ++ [c])
        (encodeNames (if sub = true then [Name.appendNumber p seq] else [])) cfg.freshness
      rw [h2, Res.ok_bind]
      obtain ⟨e1, e2, e3⟩ := publish_keeps h2
      exact ⟨_, rfl, (hs1.congr e1 e2 e3).erase _⟩
    · exact ⟨s, rfl, hs⟩

theorem publishName_safe (hc : Calm K cfg) {s : Part} (hs : Safe K cfg s) (p : Name) (seq : Option Nat)
    (hp : ∀ x ∈ publications s.base.getSeqNo [.publishName p seq], K x.1 x.2) :
    ∃ s', publishName cfg s p seq = .ok s' ∧ Safe K cfg s' := by
  unfold publishName
  cases hf : s.base.prefixes.find p with
  | none => exact ⟨s, rfl, hs⟩
  | some cur =>
    simp only [publications, Base.getSeqNo, hf, List.mem_cons, forall_eq_or_imp] at hp
    have hp1 : K p (Full.newSeq seq cur) := by cases seq <;> exact hp.1
    have hlt : Full.newSeq seq cur < U64 := by
      cases seq <;> exact Nat.mod_lt _ (by decide)
    obtain ⟨b, h1, h2⟩ := hs.base.update hc.pos hc.apart hlt hp1
    simp only [h1, Res.ok_bind]
    have hs1 : Safe K cfg { s with base := b, made := s.made ++ [(p, Full.newSeq seq cur)] } := by
      refine ⟨h2, hs.pend, fun x hx => ?_⟩
      rcases List.mem_append.mp hx with hx | hx
      · exact hs.made x hx
      · rw [List.mem_singleton.mp hx]; exact hp1
    exact fold_safe (Q := Safe K cfg) s.pending (fun m hm x hx => satisfyOne_safe hc hm p (hs.pend x hx)) _ hs1

theorem collect_total (b : Base) {bf : Bloom} (hu : Usable bf) : ∀ hs acc, ∃ r, collect b bf hs acc = .ok r
  | [], acc => ⟨acc, rfl⟩
  | h :: hs, acc => by
    unfold collect
    cases b.biMap.findLeft h with
    | none => exact collect_total b hu hs acc
    | some n =>
      obtain ⟨sub, hsub⟩ := hu (Name.dropLast n 1)
      simp only [hsub, Res.ok_bind]
      exact collect_total b hu hs _

theorem onSyncParsed_safe (hc : Calm K cfg) {s : Part} (hs : Safe K cfg s) {i : Interest} (hi : i.name ≠ []) {n : Name}
    (hn : n ≠ []) {bf : Bloom} {t : Table} (hu : Usable bf) (ht : OkTable K cfg.expected t) :
    ∃ s', onSyncParsed cfg s i n bf t = .ok s' ∧ Safe K cfg s' := by
  obtain ⟨df, hdf⟩ := diff_ok hc.pos hc.apart hc.fuel hs.base.table ht
  unfold onSyncParsed
  rw [hdf, Res.ok_bind]
  split
  · obtain ⟨d, hd⟩ := nackData_total hc.lossless s.base n
    rw [hd, Res.ok_bind]
    exact ⟨_, rfl, hs.congr rfl rfl rfl⟩
  · obtain ⟨content, hcol⟩ := collect_total s.base hu df.positive []
    rw [hcol, Res.ok_bind]
    split
    · obtain ⟨c, hcomp⟩ := toComponent_total hc.lossless s.base.iblt
      rw [hcomp, Res.ok_bind]
      obtain ⟨s2, h2⟩ := publish_total (cfg := cfg) (s := s) hi (n ++ [c]) (encodeNames content) cfg.freshness
      obtain ⟨e1, e2, e3⟩ := publish_keeps h2
      exact ⟨s2, h2, hs.congr e1 e2 e3⟩
    · refine ⟨_, rfl, hs.base, fun x hx => ?_, hs.made⟩
      rcases NMap.mem_set hx with h | h
      swap
      · exact hs.pend x h
      · rw [h]
        cases hf : s.pending.find n with
        | none => exact ⟨hn, hu, ht⟩
        | some e => exact hs.pend (n, e) (NMap.mem_of_find hf)

/-- Sync Interests. -/
theorem onSyncInterest_safe (hc : Calm K cfg) {s : Part} (hs : Safe K cfg s) {i : Interest}
    (hi : GoodName K cfg i.name ∨ ((i.name.drop (cfg.syncPrefix.length + 1)).length ≠ 4 ∧
      (i.name.drop (cfg.syncPrefix.length + 1)).length ≠ 6)) :
    ∃ s', onSyncInterest cfg s i = .ok s' ∧ Safe K cfg s' := by
  cases hst : s.pub.replyFromStore i.name with
  | some d => exact ⟨s.emit (.data d), by unfold onSyncInterest; rw [hst], hs.congr rfl rfl rfl⟩
  | none =>
    rcases hi with ⟨bf, t, hf, hu, ht⟩ | ⟨h4, h6⟩
    · rw [onSyncInterest_wf hst hf (Or.inl rfl)]
      have hne : i.name ≠ [] := by
        obtain ⟨c1, c2, c3, c4, _, _, e, _⟩ := hf
        rw [e]; simp
      exact onSyncParsed_safe hc hs hne hne hu ht
    · refine ⟨s, ?_, hs⟩
      unfold onSyncInterest
      rw [hst]
      simp only
      rw [if_pos ⟨h4, h6⟩]

/-- Hello Interests. -/
theorem onHelloInterest_safe (hc : Calm K cfg) {s : Part} (hs : Safe K cfg s) {i : Interest}
    (hi : i.name.getLast? = some HELLO ∨ 4 ≤ i.name.length) : ∃ s', onHelloInterest cfg s i = .ok s' ∧ Safe K cfg s' := by
  unfold onHelloInterest
  cases hst : s.pub.replyFromStore i.name with
  | some d => exact ⟨_, rfl, hs.congr rfl rfl rfl⟩
  | none =>
    have hne : i.name ≠ [] := by
      rintro h
      rw [h] at hi
      simp at hi
    simp only
    rw [getFromEnd_one hne, Res.ok_bind]
    have h4 : ∃ c4, (if i.name.getLast hne = HELLO then Res.ok HELLO else i.name.getFromEnd 4) = .ok c4 := by
      split
      · exact ⟨_, rfl⟩
      · rename_i hl
        rcases hi with hi | hi
        · rw [List.getLast?_eq_some_getLast hne, Option.some.injEq] at hi
          exact absurd hi hl
        · unfold Name.getFromEnd
          have hlt : i.name.length - 4 < i.name.length := by omega
          have e : ((i.name.length : Int) - ((4 : Nat) : Int)) = ((i.name.length - 4 : Nat) : Int) := by omega
          simp only [e]
          rw [if_neg (show ¬ ((i.name.length - 4 : Nat) : Int) < 0 by omega), if_pos (by omega), Int.toNat_natCast, List.getElem?_eq_getElem hlt]
          exact ⟨_, rfl⟩
    obtain ⟨c4, h4⟩ := h4
    rw [h4, Res.ok_bind]
    split
    · exact ⟨s, rfl, hs⟩
    · obtain ⟨c, hcomp⟩ := toComponent_total hc.lossless s.base.iblt
      rw [hcomp, Res.ok_bind]
      obtain ⟨s2, h2⟩ := publish_total (cfg := cfg) (s := s) hne (cfg.syncPrefix ++ [HELLO, c])
        (encodeNames (helloContent s.base)) cfg.helloFreshness
      obtain ⟨e1, e2, e3⟩ := publish_keeps h2
      exact ⟨s2, h2, hs.congr e1 e2 e3⟩

/-- One event. -/
theorem step_safe (hc : Calm K cfg) {s : Part} (hs : Safe K cfg s) {op : Op}
    (hh : ∀ i, op = .recvInterest i → (cfg.syncPrefix ++ [HELLO]) <+: i.name → i.name.getLast? = some HELLO ∨ 4 ≤ i.name.length)
    (hi : ∀ i, op = .recvInterest i → (cfg.syncPrefix ++ [SYNC]) <+: i.name → GoodName K cfg i.name ∨
      ((i.name.drop (cfg.syncPrefix.length + 1)).length ≠ 4 ∧ (i.name.drop (cfg.syncPrefix.length + 1)).length ≠ 6))
    (hp : ∀ p seq, op = .publishName p seq → ∀ x ∈ publications s.base.getSeqNo [.publishName p seq], K x.1 x.2) :
    ∃ s', step cfg s op = .ok s' ∧ Safe K cfg s' := by
  cases op with
  | addUserNode p => exact ⟨_, rfl, hs.base.add p, hs.pend, hs.made⟩
  | removeUserNode p =>
    obtain ⟨b, h1, h2⟩ := hs.base.remove hc.pos hc.apart p
    exact ⟨{ s with base := b }, by simp only [step, h1, Res.ok_bind], h2, hs.pend, hs.made⟩
  | publishName p seq => exact publishName_safe hc hs p seq (hp p seq rfl)
  | recvInterest i =>
    simp only [step]
    split
    · rename_i h
      exact onHelloInterest_safe hc hs (hh i rfl (List.isPrefixOf_iff_prefix.mp h))
    · split
      · rename_i h
        exact onSyncInterest_safe hc hs (hi i rfl (List.isPrefixOf_iff_prefix.mp h))
      · exact ⟨s, rfl, hs⟩
  | tick t =>
    simp only [step]
    split
    · exact ⟨_, rfl, hs.congr rfl rfl rfl⟩
    · exact ⟨_, rfl, hs⟩
  | expire n =>
    simp only [step]
    cases hf : s.pending.find n with
    | none => exact ⟨s, rfl, hs⟩
    | some e =>
      simp only
      cases e.timer with
      | none => exact ⟨s, rfl, hs⟩
      | some d =>
        simp only
        split
        · refine ⟨_, rfl, hs.base, fun x hx => ?_, hs.made⟩
          have hx := (List.mem_filter.mp hx).1
          rcases NMap.mem_set hx with h | h
          swap
          · exact hs.pend x h
          · rw [h]; exact hs.pend (n, e) (NMap.mem_of_find hf)
        · exact ⟨s, rfl, hs⟩
  | fireStore => exact ⟨_, rfl, hs.congr rfl rfl rfl⟩

theorem init_safe : Safe K cfg (init cfg) := ⟨okBase_new cfg, by simp [init], by simp [init]⟩

end Part
end PSync
