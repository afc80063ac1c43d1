import Verif.Props.FullPending
import Verif.Proofs.PubSubProducer
/-!
What parked Interests lack.
-/
namespace PSync
open Spec

namespace Full

theorem index_iblt (b : Base) (p : Name) : (b.index p).2.iblt = b.iblt := by
  unfold Base.index; split <;> rfl

theorem collect_iblt (neg : List U32) : ∀ (hs : List U32) (b : Base) (acc : List Name),
    (collect neg b hs acc).2.iblt = b.iblt := by
  intro hs
  induction hs with
  | nil => intro b acc; rfl
  | cons h hs ih =>
    intro b acc
    simp only [collect]
    split
    · exact ih _ _
    · simp only [isFutureHash]
      split
      · by_cases hf : nameHash ((Name.dropLast ‹Name› 1).appendNumber ((((b.index (Name.dropLast ‹Name› 1)).2.index
            (Name.dropLast ‹Name› 1)).1 + 1) % U64)) ∈ neg
        · simp only [hf, decide_true, if_true]
          rw [ih, index_iblt, index_iblt]
        · simp only [hf, decide_false, Bool.false_eq_true, if_false]
          rw [ih, index_iblt, index_iblt]
      · rw [ih, index_iblt]

/-- The IBF stays, and what is parked was parked before or carries this IBF. -/
structure Parks (cfg : Cfg) (s s' : Full) : Prop where
  iblt : s'.base.iblt = s.base.iblt
  park : ∀ n ∈ s'.pending.keys, n ∈ s.pending.keys ∨ CarriesIbf cfg n s.base.iblt

theorem Parks.refl (cfg : Cfg) (s : Full) : Parks cfg s s := ⟨rfl, fun _ h => .inl h⟩

theorem Parks.trans {cfg : Cfg} {a b c : Full} (h : Parks cfg a b) (h' : Parks cfg b c) : Parks cfg a c :=
  ⟨h'.iblt.trans h.iblt, fun n hn => (h'.park n hn).elim (h.park n) (fun h2 => .inr (by rw [← h.iblt]; exact h2))⟩

theorem Parks.congr {cfg : Cfg} {s s1 s2 : Full} (h : Parks cfg s s1) (hb : s2.base.iblt = s1.base.iblt)
    (hp : s2.pending = s1.pending) : Parks cfg s s2 := ⟨hb.trans h.iblt, by rw [hp]; exact h.park⟩

theorem Parks.pre {cfg : Cfg} {s s1 s2 : Full} (h : Parks cfg s1 s2) (hb : s1.base.iblt = s.base.iblt)
    (hp : s1.pending = s.pending) : Parks cfg s s2 := ⟨h.iblt.trans hb, by rw [← hp, ← hb]; exact h.park⟩

theorem Parks.mark {cfg : Cfg} {s s1 : Full} (h : Parks cfg s s1) (n : Name) : Parks cfg s (s1.markWaiting n) :=
  h.congr (by rw [markWaiting_base]) (markWaiting_fields s1 n).2

theorem keys_erase_subset {β : Type} {m : NMap β} {k n : Name} (h : n ∈ (m.erase k).keys) : n ∈ m.keys := by
  simp only [NMap.keys, NMap.erase, List.mem_map, List.mem_filter] at h ⊢
  obtain ⟨a, ⟨h1, _⟩, h2⟩ := h
  exact ⟨a, h1, h2⟩

theorem Parks.delete {cfg : Cfg} {s s1 : Full} (h : Parks cfg s s1) (n : Name) : Parks cfg s (s1.deletePending n) :=
  ⟨h.iblt, fun k hk => h.park k (keys_erase_subset hk)⟩

theorem waitOrGiveUp_pending (cfg : Cfg) (s : Full) (i : Interest) (t : Bool) :
    (waitOrGiveUp cfg s i t).1.pending = s.pending := by
  unfold waitOrGiveUp
  split
  · split
    · rw [scheduleProcess_eq]
    · rfl
  · split
    · split
      · exact (markWaiting_fields s i.name).2
      · rfl
    · rfl

theorem onUndecodable_parks {cfg : Cfg} {s s' : Full} {i : Interest} {t : Bool} {n : Nat} {d : IBLTDiff}
    (h : onUndecodable cfg s i t n d = .ok s') : Parks cfg s s' := by
  unfold onUndecodable at h
  split at h
  · have h1 := waitOrGiveUp_base cfg s i t
    have h2 := waitOrGiveUp_pending cfg s i t
    split at h
    · rename_i s1 hw
      rw [hw] at h1 h2
      have hc := sendSyncInterest_core h
      exact (Parks.refl cfg s).congr (by rw [hc.base]; exact congrArg Base.iblt h1) (by rw [hc.pending]; exact h2)
    · rename_i s1 hw
      rw [hw] at h1 h2
      cases h
      exact (Parks.refl cfg s).congr (congrArg Base.iblt h1) h2
  · split at h
    · cases h; exact Parks.refl _ _
    · simp only at h
      split at h
      · cases h; exact (Parks.refl _ _).mark _
      · simp only [Res.bind_eq_ok, Res.ok.injEq] at h
        obtain ⟨s1, h1, rfl⟩ := h
        have hc := sendSyncData_core h1
        exact (((Parks.refl cfg s).congr (by rw [hc.base]) hc.pending).delete _).mark _

theorem keys_set {β : Type} {m : NMap β} {k n : Name} {v : β} (h : n ∈ (m.set k v).keys) : n ∈ m.keys ∨ n = k := by
  rw [NMap.mem_keys, NMap.find_set] at h
  split at h
  · rename_i e; exact .inr e.symm
  · rw [← NMap.mem_keys] at h; exact .inl h

theorem onDecoded_parks {cfg : Cfg} {s s' : Full} {i : Interest} {t : Bool} {ib : Table} {d : IBLTDiff}
    (hd : Table.diff cfg.fuel s.base.iblt ib = .ok d) (hc : d.canDecode = true) (hi : CarriesIbf cfg i.name ib)
    (h : onDecoded cfg s i t ib d = .ok s') : Parks cfg s s' := by
  unfold onDecoded at h
  split at h
  · rename_i hemp
    simp only [Bool.and_eq_true, List.isEmpty_iff] at hemp
    have heq : s.base.iblt = ib := (diff_nothing hd).mp ⟨hc, hemp.1, hemp.2⟩
    simp only [Res.ok.injEq] at h
    subst h
    have hp : Parks cfg s { s with pending := s.pending.set i.name ⟨((s.pending.find i.name).getD ⟨ib, 0⟩).iblt, s.now + i.lifetime⟩ } := by
      refine ⟨rfl, fun n hn => ?_⟩
      rcases keys_set hn with h1 | rfl
      · exact .inl h1
      · exact .inr (heq ▸ hi)
    split
    · exact hp.mark _
    · exact hp
  · split at h
    · simp only [Res.ok.injEq] at h
      subst h
      exact (Parks.refl cfg s).congr (by rw [waitOrGiveUp_base]) (waitOrGiveUp_pending _ _ _ _)
    · have hci := collect_iblt d.negative d.positive s.base []
      generalize collect d.negative s.base d.positive [] = x at h hci
      obtain ⟨content, b⟩ := x
      simp only at h hci
      split at h
      · cases h; exact (Parks.refl _ _).congr hci rfl
      · simp only [Res.bind_eq_ok, Res.ok.injEq] at h
        obtain ⟨s1, h2, rfl⟩ := h
        have hc := sendSyncData_core h2
        exact ((Parks.refl cfg s).congr (by rw [hc.base]; exact hci) hc.pending).mark _

theorem carries_of {cfg : Cfg} {n : Name} {c : Component} {t : Table} (hl : 2 ≤ n.length) (hc : n.getFromEnd 2 = .ok c)
    (ht : Table.initialize cfg.ibltCodec cfg.expected c = .ok t) : CarriesIbf cfg n t := by
  obtain ⟨m, a, b, rfl⟩ : ∃ m a b, n = m ++ [a, b] := by
    refine ⟨n.take (n.length - 2), n[n.length - 2], n[n.length - 1], ?_⟩
    conv_lhs => rw [← List.take_append_drop (n.length - 2) n]
    congr 1
    rw [List.drop_eq_getElem_cons (by omega), show n.length - 2 + 1 = n.length - 1 by omega,
      List.drop_eq_getElem_cons (by omega), show n.length - 1 + 1 = n.length by omega, List.drop_length]
  refine ⟨m, a, b, rfl, ?_⟩
  have e1 : (((m ++ [a, b]).length : Nat) : Int) - ((2 : Nat) : Int) = (m.length : Int) := by
    simp only [List.length_append, List.length_cons, List.length_nil]; omega
  have e2 : ¬ (m.length : Int) < 0 := by omega
  simp only [Name.getFromEnd, e1, if_neg e2] at hc
  rw [if_pos (by omega)] at hc
  simp only [Int.toNat_natCast, List.getElem?_append_right (Nat.le_refl _), Nat.sub_self, List.getElem?_cons_zero,
    Res.ok.injEq] at hc
  subst hc
  exact ht

theorem onSyncInterest_parked {cfg : Cfg} {s s' : Full} {i : Interest} {t : Bool}
    (h : onSyncInterest cfg s i t = .ok s') : Parks cfg s s' := by
  rcases onSyncInterest_cases h with ⟨d, _, rfl⟩ | ⟨_, ⟨d, _, _, rfl⟩ | rfl | ⟨c2, c1, num, ib, df, hl, h2, _, _, h3, h4, h1⟩⟩
  · exact (Parks.refl _ _).congr rfl rfl
  · exact (Parks.refl _ _).congr rfl rfl
  · exact Parks.refl _ _
  · rcases h1 with ⟨_, h1⟩ | ⟨h5, h1⟩
    · exact onUndecodable_parks h1
    · exact onDecoded_parks h4 h5 (carries_of (by rw [List.length_drop] at hl; omega) h2 h3) h1

theorem processOne_parks {cfg : Cfg} {s s' : Full} {n : Name} (h : processOne cfg s n = .ok s') : Parks cfg s s' := by
  unfold processOne at h
  split at h
  · cases h; exact Parks.refl _ _
  · split at h
    · cases h; exact (Parks.refl _ _).congr rfl rfl
    · simp only [Res.bind_eq_ok] at h
      obtain ⟨s1, h1, h2⟩ := h
      have h3 := (onSyncInterest_parked h1).pre (s := s) rfl rfl
      split at h2
      · cases h2; exact h3
      · split at h2
        · cases h2; exact h3.congr rfl rfl
        · cases h2; exact h3

theorem processWaiting_parks {cfg : Cfg} {s s' : Full} (h : processWaiting cfg s = .ok s') : Parks cfg s s' :=
  foldRes_rel (Q := Parks cfg) (Parks.refl cfg) (fun _ _ _ => Parks.trans) _ (fun _ _ _ _ => processOne_parks) h

theorem shrunk_keys {s s' : Full} (h : Shrunk s s') {n : Name} (hn : n ∈ s'.pending.keys) : n ∈ s.pending.keys := by
  rw [NMap.mem_keys, Option.isSome_iff_exists] at hn ⊢
  obtain ⟨e, he⟩ := hn
  exact ⟨e, h.park n e he⟩

/-- Every parked Interest carries the IBF `t`. -/
def AllCarry (cfg : Cfg) (t : Table) (s : Full) : Prop := ∀ n ∈ s.pending.keys, CarriesIbf cfg n t

theorem Shrunk.carry {cfg : Cfg} {t : Table} {s s' : Full} (h : Shrunk s s') (hs : AllCarry cfg t s) : AllCarry cfg t s' :=
  fun n hn => hs n (shrunk_keys h hn)

theorem Parks.carry {cfg : Cfg} {s s' : Full} (h : Parks cfg s s') (hs : AllCarry cfg s.base.iblt s) :
    AllCarry cfg s'.base.iblt s' := by
  intro n hn
  rw [h.iblt]
  exact (h.park n hn).elim (hs n) id

theorem publishName_clears {cfg : Cfg} {s s' : Full} {p : Name} {seq : Option Nat} (h : publishName cfg s p seq = .ok s') :
    s' = s ∨ s'.pending = [] := by
  unfold publishName at h
  split at h
  · cases h; exact .inl rfl
  · right
    simp only [Res.bind_eq_ok] at h
    obtain ⟨b, _, h2⟩ := h
    unfold satisfyPending at h2
    have key : ∀ (u : Name) (es : List (Name × FPending)) (a b : Full), foldRes (satisfyOne cfg u) a es = .ok b →
        ∀ k ∈ b.pending.keys, k ∈ a.pending.keys ∧ k ∉ es.map Prod.fst := by
      intro u es
      induction es with
      | nil => intro a b h k hk; simp only [foldRes, Res.ok.injEq] at h; subst h; exact ⟨hk, by simp⟩
      | cons e es ih =>
        intro a b h k hk
        simp only [foldRes, Res.bind_eq_ok] at h
        obtain ⟨a1, h3, h4⟩ := h
        obtain ⟨h5, h6⟩ := ih a1 b h4 k hk
        unfold satisfyOne at h3
        simp only [Res.bind_eq_ok, Res.ok.injEq] at h3
        obtain ⟨df, _, a2, h7, rfl⟩ := h3
        have hc := sendSyncData_core h7
        have hne : k ≠ e.1 := by
          rintro rfl
          simp [NMap.mem_keys, deletePending, NMap.find_erase] at h5
        refine ⟨?_, by simp only [List.map_cons, List.mem_cons, not_or]; exact ⟨hne, h6⟩⟩
        have := keys_erase_subset h5
        rw [hc.pending] at this
        exact this
    apply nil_of_find_none
    intro k
    by_contra hk
    have hk' : k ∈ s'.pending.keys := by
      rw [NMap.mem_keys]
      exact Option.isSome_iff_ne_none.mpr hk
    have := key _ _ _ _ h2 k hk'
    exact this.2 this.1

/-- Events that leave the IBF alone, and publications, keep all parked Interests up to date. -/
theorem step_carry {cfg : Cfg} {s s' : Full} {op : Op} (h : step cfg s op = .ok s')
    (hop : s'.base.iblt = s.base.iblt ∨ ∃ p q, op = .call (.publishName p q)) (hs : AllCarry cfg s.base.iblt s) :
    AllCarry cfg s'.base.iblt s' := by
  have shr : Shrunk s s' → AllCarry cfg s'.base.iblt s' := fun hk => by
    rcases hop with hop | ⟨p, q, rfl⟩
    · rw [hop]; exact hk.carry hs
    · simp only [step, call] at h
      rcases publishName_clears h with rfl | h1
      · exact hs
      · intro n hn; rw [h1] at hn; simp [NMap.keys] at hn
  cases op with
  | call c => exact shr (call_shrunk h)
  | recvInterest i =>
    simp only [step] at h
    split at h
    · exact (onSyncInterest_parked h).carry hs
    · cases h; exact hs
  | complete buf acts =>
    simp only [step] at h
    split at h
    · split at h
      · unfold onSyncData at h
        simp only at h
        have h0 : ∀ n, Shrunk s (s.stopFetcher.deletePending n) := fun n =>
          ((Shrunk.refl s).congr rfl rfl rfl : Shrunk s s.stopFetcher).delete n
        split at h
        · cases h; exact shr (h0 _)
        · simp only [Res.bind_eq_ok] at h
          obtain ⟨r, h1, h2⟩ := h
          split at h2
          · cases h2; exact shr ((h0 _).congr rfl rfl rfl)
          · simp only [Res.bind_eq_ok] at h2
            obtain ⟨s1, h3, h4⟩ := h2
            have h6 : Shrunk s s1 := by
              refine Shrunk.trans ?_ (calls_shrunk h3)
              exact (h0 _).congr rfl rfl rfl
            have h8 := processWaiting_parks h4
            have hop' : s'.base.iblt = s.base.iblt := by
              rcases hop with hop | ⟨_, _, hop⟩
              · exact hop
              · cases hop
            refine h8.carry ?_
            have e1 : s1.base.iblt = s.base.iblt := by rw [← hop']; exact h8.iblt.symm
            show AllCarry cfg s1.base.iblt _
            rw [e1]
            exact (h6.congr rfl rfl rfl : Shrunk s { s1 with
              sched := some (s1.now + cfg.jitter s1.draws, .renew)
              draws := s1.draws + 1
              waitOut := false }).carry hs
      · cases h; exact hs
    · cases h; exact hs
  | fireDelay =>
    simp only [step] at h
    split at h
    · split at h
      · simp only [Res.bind_eq_ok, Res.ok.injEq] at h
        obtain ⟨s1, h1, rfl⟩ := h
        have h2 := (processWaiting_parks h1).pre (s := s) rfl rfl
        have h3 := h2.carry hs
        rw [scheduleProcess_eq]
        exact h3
      · cases h; exact hs
    · cases h; exact hs
  | segment f =>
    simp only [step] at h
    split at h
    · cases h; split <;> exact hs
    · cases h; exact hs
  | error t =>
    simp only [step] at h
    split at h
    · split at h
      · cases h; split <;> exact hs
      · cases h; exact hs
    · cases h; exact hs
  | tick t =>
    simp only [step, Res.ok.injEq] at h
    subst h
    split <;> exact hs
  | fireSync =>
    simp only [step] at h
    split at h
    · split at h
      · split at h
        · have hc := sendSyncInterest_core h
          exact shr ((Shrunk.refl s).congr hc.now hc.pending hc.waiting)
        · have hc := sendSyncInterest_core h
          exact shr ((Shrunk.refl s).congr hc.now hc.pending hc.waiting)
      · cases h; exact hs
    · cases h; exact hs
  | expire n =>
    simp only [step] at h
    split at h
    · cases h
      split
      · exact fun k hk => hs k (keys_erase_subset hk)
      · exact hs
    · cases h; exact hs
  | fireStore =>
    simp only [step, Res.ok.injEq] at h
    subst h
    exact hs

end Full
end PSync
