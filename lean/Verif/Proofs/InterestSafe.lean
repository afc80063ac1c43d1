import Verif.Spec.InterestSafe
import Verif.Proofs.NoThrow
import Verif.Proofs.PartReply
/-!
When the Interest handlers fail.
-/
namespace PSync
open Spec

variable {α β : Type}

theorem fails_ok (a : α) : ¬ Fails (Res.ok a) := by rintro (⟨u, h⟩ | h) <;> cases h
theorem fails_throw (e : Err) : ¬ Fails (Res.throw e : Res α) := by rintro (⟨u, h⟩ | h) <;> cases h
theorem fails_of_ok {r : Res α} (h : ∃ a, r = .ok a) : ¬ Fails r := by
  obtain ⟨a, rfl⟩ := h; exact fails_ok a

theorem fails_bind {x : Res α} {f : α → Res β} : Fails (Res.bind x f) ↔ Fails x ∨ ∃ a, x = .ok a ∧ Fails (f a) := by
  cases x with
  | ok a =>
    rw [Res.ok_bind]
    exact ⟨fun h => .inr ⟨a, rfl, h⟩, fun h => h.elim (fun h => absurd h (fails_ok a)) (by rintro ⟨b, hb, h⟩; cases hb; exact h)⟩
  | throw e =>
    refine ⟨fun h => absurd h (fails_throw e), ?_⟩
    rintro (h | ⟨a, h, _⟩)
    · exact absurd h (fails_throw e)
    · cases h
  | ub u => exact ⟨fun _ => .inl (.inl ⟨u, rfl⟩), fun _ => .inl ⟨u, rfl⟩⟩
  | hang => exact ⟨fun _ => .inl (.inr rfl), fun _ => .inr rfl⟩

theorem fails_toNumber (c : Component) : ¬ Fails c.toNumber := by
  unfold Component.toNumber Res.ofOption
  cases readNni c.value with
  | none => exact fails_throw _
  | some x => exact fails_ok _

theorem fails_initialize (cdc : Codec) (e : Nat) (c : Component) : ¬ Fails (Table.initialize cdc e c) := by
  unfold Table.initialize
  rw [fails_bind]
  rintro (h | ⟨bs, _, h⟩)
  · unfold Res.ofOption at h
    split at h
    · exact fails_ok _ h
    · exact fails_throw _ h
  · split at h
    · exact fails_throw _ h
    · exact fails_ok _ h

namespace Part

theorem fails_extract (l : Name) (c1 c2 c3 c4 : Component) : ¬ Fails (extract (l ++ [c1, c2, c3, c4])) := by
  have e4 := getFromEnd_mid l c1 [c2, c3, c4]
  have e3 := getFromEnd_mid (l ++ [c1]) c2 [c3, c4]
  have e2 := getFromEnd_mid (l ++ [c1, c2]) c3 [c4]
  have e1 := getFromEnd_mid (l ++ [c1, c2, c3]) c4 []
  simp only [List.append_assoc, List.cons_append, List.nil_append, List.length_cons, List.length_nil, Nat.zero_add,
    Nat.reduceAdd] at e4 e3 e2 e1
  unfold extract
  simp only [e4, e3, e2, e1, Res.ok_bind]
  rw [fails_bind]
  rintro (h | ⟨a, _, h⟩)
  · exact fails_toNumber _ h
  · rw [fails_bind] at h
    rcases h with h | ⟨b, _, h⟩
    · exact fails_toNumber _ h
    · exact fails_ok _ h

theorem fails_collect (b : Base) (bf : Bloom) : ∀ hs acc,
    Fails (collect b bf hs acc) ↔ ∃ h ∈ hs, ∃ n, b.biMap.findLeft h = some n ∧ Fails (bf.contains (Name.dropLast n 1))
  | [], acc => by
    refine ⟨fun h => absurd h (fails_ok acc), ?_⟩
    rintro ⟨h, hm, _⟩
    cases hm
  | h :: hs, acc => by
    unfold collect
    cases hb : b.biMap.findLeft h with
    | none =>
      simp only
      rw [fails_collect b bf hs acc]
      constructor
      · rintro ⟨x, hx, r⟩; exact ⟨x, List.mem_cons_of_mem _ hx, r⟩
      · rintro ⟨x, hx, n, hn, r⟩
        rcases List.mem_cons.mp hx with rfl | hx
        · rw [hb] at hn; cases hn
        · exact ⟨x, hx, n, hn, r⟩
    | some n =>
      simp only
      rw [fails_bind]
      constructor
      · rintro (hf | ⟨a, _, hf⟩)
        · exact ⟨h, by simp, n, hb, hf⟩
        · obtain ⟨x, hx, r⟩ := (fails_collect b bf hs _).mp hf
          exact ⟨x, List.mem_cons_of_mem _ hx, r⟩
      · rintro ⟨x, hx, m, hm, hf⟩
        rcases List.mem_cons.mp hx with rfl | hx
        · rw [hb] at hm; cases hm
          exact .inl hf
        · cases hc : bf.contains (Name.dropLast n 1) with
          | ok a => exact .inr ⟨a, rfl, (fails_collect b bf hs _).mpr ⟨x, hx, m, hm, hf⟩⟩
          | throw e => exact absurd hc (contains_noThrow bf _ e)
          | ub u => exact .inl (.inl ⟨u, rfl⟩)
          | hang => exact .inl (.inr rfl)

theorem fails_parsed {cfg : Cfg} (hwf : cfg.WF) (s : Part) (i : Interest) (hi : i.name ≠ []) (key : Name) (bf : Bloom) (t : Table) :
    Fails (onSyncParsed cfg s i key bf t) ↔ AnswerFails cfg s bf t := by
  unfold onSyncParsed AnswerFails
  rw [fails_bind]
  refine or_congr Iff.rfl ⟨?_, ?_⟩
  · rintro ⟨d, hd, h⟩
    refine ⟨d, hd, ?_⟩
    split at h
    · rw [fails_bind] at h
      rcases h with h | ⟨a, _, h⟩
      · exact absurd h (fails_of_ok (nackData_total hwf.iblt_lossless _ _))
      · exact absurd h (fails_ok _)
    · rename_i hc
      refine ⟨by simpa using hc, ?_⟩
      rw [fails_bind] at h
      rcases h with h | ⟨a, _, h⟩
      · exact (fails_collect _ _ _ _).mp h
      · exfalso
        split at h
        · rw [fails_bind] at h
          rcases h with h | ⟨c, _, h⟩
          · exact fails_of_ok (toComponent_total hwf.iblt_lossless _) h
          · exact fails_of_ok (publish_total hi _ _ _) h
        · exact fails_ok _ h
  · rintro ⟨d, hd, hc, h⟩
    refine ⟨d, hd, ?_⟩
    rw [if_neg (by simp [hc]), fails_bind]
    exact .inl ((fails_collect _ _ _ _).mpr h)

/-- The handler on a name that asks in the expected form. -/
theorem onSyncInterest_ask {cfg : Cfg} {s : Part} {i : Interest} {count th : Nat} {c3 c4 : Component}
    (hst : s.pub.replyFromStore i.name = none) (ha : SyncAsk cfg i.name count th c3 c4) : ∃ key,
    onSyncInterest cfg s i =
      match Res.bind (Bloom.ofComponent cfg.libm cfg.extraSalt (count % 4294967296) (cfg.libm.ofThousandths th) c3)
          (fun bf => Res.bind (Table.initialize cfg.ibltCodec cfg.expected c4) fun t => .ok (bf, t)) with
        | .throw _ => .ok s
        | .ub u => .ub u
        | .hang => .hang
        | .ok (bf, iblt) => onSyncParsed cfg s i key bf iblt := by
  obtain ⟨c1, c2, hk, h1, h2⟩ := ha
  have hex : extract (cfg.syncPrefix ++ [SYNC, c1, c2, c3, c4]) = .ok (count % 4294967296, th, c3, c4) := by
    have := (extract_four (cfg.syncPrefix ++ [SYNC]) c1 c2 c3 c4 _).mpr ⟨count, th, h1, h2, rfl⟩
    rw [List.append_assoc] at this
    exact this
  have hd : ∀ r : Name, ((cfg.syncPrefix ++ SYNC :: r).drop (cfg.syncPrefix.length + 1)).length = r.length := by
    intro r
    rw [List.length_drop, List.length_append, List.length_cons]; omega
  refine ⟨cfg.syncPrefix ++ [SYNC, c1, c2, c3, c4], ?_⟩
  unfold onSyncInterest
  simp only [hst]
  rcases hk with hk | ⟨v, g, hk⟩
  · rw [hk]
    have : ((cfg.syncPrefix ++ [SYNC, c1, c2, c3, c4]).drop (cfg.syncPrefix.length + 1)).length = 4 := hd _
    simp only [this, if_true]
    rw [if_neg (by omega)]
    simp only [hex]
    generalize Res.bind _ _ = y
    cases y <;> rfl
  · rw [hk]
    have : ((cfg.syncPrefix ++ [SYNC, c1, c2, c3, c4] ++ [v, g]).drop (cfg.syncPrefix.length + 1)).length = 6 := by simp
    have hdl := dropLast_two (cfg.syncPrefix ++ [SYNC, c1, c2, c3, c4]) v g
    simp only [this]
    rw [if_neg (by omega)]
    simp only [show ¬ ((6 : Nat) = 4) by omega, if_false, hdl, hex]
    generalize Res.bind _ _ = y
    cases y <;> rfl

/-- A name that does not ask in the expected form is harmless. -/
theorem ask_of_fails {cfg : Cfg} {s : Part} {i : Interest} (hp : (cfg.syncPrefix ++ [SYNC]) <+: i.name)
    (h : Fails (onSyncInterest cfg s i)) :
    s.pub.replyFromStore i.name = none ∧ ∃ count th c3 c4, SyncAsk cfg i.name count th c3 c4 := by
  unfold onSyncInterest at h
  cases hst : s.pub.replyFromStore i.name with
  | some d => rw [hst] at h; exact absurd h (fails_ok _)
  | none =>
    rw [hst] at h
    refine ⟨rfl, ?_⟩
    simp only at h
    split at h
    · exact absurd h (fails_ok _)
    · rename_i hn
      have key : ∀ a1 a2 a3 a4, AsksFor i.name (cfg.syncPrefix ++ [SYNC] ++ [a1, a2, a3, a4]) →
          (if (i.name.drop (cfg.syncPrefix.length + 1)).length = 4 then i.name else Name.dropLast i.name 2)
            = cfg.syncPrefix ++ [SYNC] ++ [a1, a2, a3, a4] → ∃ count th c3 c4, SyncAsk cfg i.name count th c3 c4 := by
        intro a1 a2 a3 a4 hk e
        rw [e] at h
        cases hx : extract (cfg.syncPrefix ++ [SYNC] ++ [a1, a2, a3, a4]) with
        | throw e => rw [hx] at h; exact absurd h (fails_ok _)
        | ub u => exact absurd (.inl ⟨u, hx⟩) (fails_extract _ a1 a2 a3 a4)
        | hang => exact absurd (.inr hx) (fails_extract _ a1 a2 a3 a4)
        | ok x =>
          obtain ⟨k, f, e1, e2, _⟩ := (extract_four _ _ _ _ _ _).mp hx
          rw [List.append_assoc] at hk
          exact ⟨k, f, a3, a4, a1, a2, hk, e1, e2⟩
      have hlen : (cfg.syncPrefix ++ [SYNC]).length = cfg.syncPrefix.length + 1 := by simp
      by_cases h4 : (i.name.drop (cfg.syncPrefix.length + 1)).length = 4
      · obtain ⟨a1, a2, a3, a4, e⟩ := split_four hp (by rw [hlen]; exact h4)
        exact key a1 a2 a3 a4 (.inl e) (by rw [if_pos h4, e])
      · obtain ⟨a1, a2, a3, a4, v, g, e⟩ := split_six hp (by rw [hlen]; omega)
        have e' : i.name = cfg.syncPrefix ++ [SYNC] ++ [a1, a2, a3, a4] ++ [v, g] := by rw [e]; simp
        refine key a1 a2 a3 a4 (.inr ⟨v, g, e'⟩) ?_
        rw [if_neg h4, e', dropLast_two]

/-- A hello Interest is harmless. -/
theorem fails_hello {cfg : Cfg} (hwf : cfg.WF) (s : Part) (i : Interest) (hp : (cfg.syncPrefix ++ [HELLO]) <+: i.name) :
    ¬ Fails (onHelloInterest cfg s i) := by
  have hne : i.name ≠ [] := by
    intro hnil
    rw [hnil, List.prefix_nil] at hp
    simp at hp
  unfold onHelloInterest
  cases s.pub.replyFromStore i.name with
  | some d => exact fails_ok _
  | none =>
    simp only
    rw [getFromEnd_one hne, Res.ok_bind, fails_bind]
    rintro (h | ⟨c4, _, h⟩)
    · split at h
      · exact fails_ok _ h
      · rename_i hl
        have hlen : 2 ≤ i.name.length := by
          have h1 : 0 < i.name.length := List.length_pos_iff.mpr hne
          by_contra hlt
          obtain ⟨x, hx⟩ := List.length_eq_one_iff.mp (show i.name.length = 1 by omega)
          obtain ⟨r, hr⟩ := hp
          rw [hx] at hr
          apply hl
          have hlen2 := congrArg List.length hr
          simp only [List.length_append, List.length_cons, List.length_nil] at hlen2
          have hp0 : cfg.syncPrefix = [] := List.length_eq_zero_iff.mp (by omega)
          have hr0 : r = [] := List.length_eq_zero_iff.mp (by omega)
          rw [hp0, hr0] at hr
          simp only [List.nil_append, List.append_nil, List.cons.injEq, and_true] at hr
          simp [hx, hr]
        apply fails_of_ok ?_ h
        unfold Name.getFromEnd
        simp only
        have key : ∀ j : Int, 0 ≤ j → j.toNat < i.name.length → ∃ a, (if 0 ≤ j then
            match i.name[j.toNat]? with
            | some c => Res.ok c
            | none => .ub .outOfBounds
          else .ub .outOfBounds) = .ok a := by
          intro j h0 h1
          rw [if_pos h0, List.getElem?_eq_getElem h1]
          exact ⟨_, rfl⟩
        apply key
        · split <;> omega
        · split <;> omega
    · split at h
      · exact fails_ok _ h
      · rw [fails_bind] at h
        rcases h with h | ⟨c, _, h⟩
        · exact fails_of_ok (toComponent_total hwf.iblt_lossless _) h
        · exact fails_of_ok (publish_total hne _ _ _) h

end Part
end PSync
