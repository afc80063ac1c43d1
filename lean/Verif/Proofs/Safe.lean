import Verif.Proofs.Group
import Verif.Proofs.Total
import Verif.Proofs.BaseTotal
import Verif.Proofs.Owed
import Verif.Spec.Safe
/-!
Operations of a producer that cannot fail as long as all tables hold published numbers and nothing collides.
-/
namespace PSync
open Spec Base

/-- An IBF that holds the hashes of numbers in `P`. -/
def OkTable (P : Name → Nat → Prop) (e : Nat) (t : Table) : Prop := ∃ A, HoldsSet e t A ∧ HashesOf P A

/-- A prefix table made of numbers in `P`, with the IBF that belongs to it. -/
structure OkBase (P : Name → Nat → Prop) (e : Nat) (b : Base) : Prop where
  inv : b.Inv
  exact : b.Exact e
  sourced : TableSourced P b

section
variable {P : Name → Nat → Prop} {e : Nat}

theorem OkBase.hashes {b : Base} (h : OkBase P e b) : HashesOf P (b.biMap.map Prod.fst) := by
  refine ⟨h.inv.nodupL, fun k hk => ?_⟩
  obtain ⟨⟨x, n⟩, hm, rfl⟩ := List.mem_map.mp hk
  obtain ⟨hx, p, s, hp, hs, rfl⟩ := h.inv.bm _ _ hm
  exact ⟨p, s, (h.sourced.table p s hp).resolve_left hs, hx.symm⟩

theorem OkBase.table {b : Base} (h : OkBase P e b) : OkTable P e b.iblt := ⟨_, h.exact.ibf, h.hashes⟩

theorem hashes_few (hP : NoCollisionsIn e P) {A : List U32} (hA : HashesOf P A) : A.length < 2147483647 := by
  have := hP.few A [] hA ⟨List.nodup_nil, by simp⟩
  simpa [diffCount] using this

theorem diff_ok (he : 0 < e) (hP : NoCollisionsIn e P) {fuel : Nat}
    (hf : ∀ A B, HashesOf P A → HashesOf P B → diffCount A B < fuel) {l r : Table} (hl : OkTable P e l)
    (hr : OkTable P e r) : ∃ d, Table.diff fuel l r = .ok d := by
  obtain ⟨A, h1, h2⟩ := hl
  obtain ⟨B, h3, h4⟩ := hr
  exact c05_total e he A B l r fuel h1 h3 (hP.few A B h2 h4) (hP.checks A B h2 h4) (hf A B h2 h4)

theorem okBase_new (cfg : Cfg) : OkBase P cfg.expected (Base.new cfg) :=
  ⟨Base.inv_new cfg, Base.exact_new cfg, ⟨fun p q hp => by simp [Base.new] at hp, fun p o n m hm => by simp [Base.new] at hm⟩⟩

theorem OkBase.add {b : Base} (h : OkBase P e b) (p : Name) : OkBase P e (b.addUserNode p).2 :=
  ⟨Base.inv_add h.inv p, Base.exact_add h.exact p, h.sourced.add p⟩

theorem OkBase.index {b : Base} (h : OkBase P e b) (p : Name) : OkBase P e (b.index p).2 := by
  rw [(Base.index_eq b p).2]; exact h.add p

theorem eraseName_ok_total (he : 0 < e) {b : Base} {A : List U32} (h : HoldsSet e b.iblt A) (hl : A.length < 2147483647)
    (n : Name) : ∃ b', b.eraseName n = .ok b' :=
  eraseName_total he n (posKeys_units A) (by simpa [posKeys] using hl) (holdsSet_table he h)

theorem OkBase.remove (he : 0 < e) (hP : NoCollisionsIn e P) {b : Base} (h : OkBase P e b) (p : Name) :
    ∃ b', b.removeUserNode p = .ok b' ∧ OkBase P e b' := by
  have : ∃ b', b.removeUserNode p = .ok b' := by
    unfold removeUserNode
    split
    · exact ⟨_, rfl⟩
    · rename_i s _
      exact eraseName_ok_total he (b := { b with prefixes := b.prefixes.erase p, hist := b.hist ++ [.remove p s] })
        h.exact.ibf (hashes_few hP h.hashes) _
  obtain ⟨b', hb'⟩ := this
  exact ⟨b', hb', Base.inv_remove h.inv hb', Base.exact_remove h.inv h.exact hb', h.sourced.remove hb'⟩

theorem OkBase.update (he : 0 < e) (hP : NoCollisionsIn e P) {b : Base} (h : OkBase P e b) {p : Name} {q : Nat}
    (hq : q < U64) (hpq : P p q) : ∃ b', b.updateSeqNo p q = .ok b' ∧ OkBase P e b' := by
  have : ∃ b', b.updateSeqNo p q = .ok b' := by
    unfold updateSeqNo
    split
    · exact ⟨_, rfl⟩
    · split
      · exact ⟨_, rfl⟩
      · rename_i old _ hge
        have h1 : ∃ b1, (if old ≠ 0 then b.eraseName (Name.appendNumber p old) else .ok b) = .ok b1 ∧
            HoldsSet e b1.iblt (b1.biMap.map Prod.fst) ∧ (b1.biMap.map Prod.fst).length < 2147483647 := by
          split
          · obtain ⟨b1, h1⟩ := eraseName_ok_total he h.exact.ibf (hashes_few hP h.hashes) (Name.appendNumber p old)
            refine ⟨b1, h1, eraseName_holds h.inv.nodupL h.inv.nodupR h.exact.ibf h1, ?_⟩
            obtain ⟨_, _, _, h4, _⟩ := eraseName_ok h1
            rw [h4]
            exact lt_of_le_of_lt (((List.filter_sublist (l := b.biMap)).map _).length_le) (hashes_few hP h.hashes)
          · exact ⟨b, rfl, h.exact.ibf, hashes_few hP h.hashes⟩
        obtain ⟨b1, h1, h2, h3⟩ := h1
        rw [h1]
        simp only [Res.ok_bind]
        rw [holdsSet_table he h2, Table.insert, ibltUpdate_tableOf (buckets_pos he) (posKeys_units _) (by simpa [posKeys] using h3)
          (Or.inl rfl)]
        exact ⟨_, rfl⟩
  obtain ⟨b', hb'⟩ := this
  have hs := h.sourced.update hpq hb'
  exact ⟨b', hb', Base.inv_update h.inv hq hb', Base.exact_update h.inv h.exact hq hb' (collisionFree_of hP hs), hs⟩

end

namespace Full

/-- A sync Interest name with an IBF that holds hashes of numbers in `P`. -/
def OkName (P : Name → Nat → Prop) (cfg : Cfg) (n : Name) : Prop :=
  ∃ c d x t, n = cfg.syncPrefix ++ [c, d] ∧ Component.toNumber d = .ok x ∧
    Table.initialize cfg.ibltCodec cfg.expected c = .ok t ∧ OkTable P cfg.expected t

/-- A producer that holds and has parked only numbers in `P`. -/
structure Safe (P : Name → Nat → Prop) (cfg : Cfg) (s : Full) : Prop where
  base : OkBase P cfg.expected s.base
  pend : ∀ x ∈ s.pending, x.1 ≠ [] ∧ OkTable P cfg.expected x.2.iblt
  wait : ∀ n w, s.waiting.find n = some w → OkName P cfg n
  made : ∀ x ∈ s.made, P x.1 x.2

section
variable {P : Name → Nat → Prop} {cfg : Cfg}

theorem Safe.congr {s s' : Full} (h : Safe P cfg s) (h1 : s'.base = s.base) (h2 : s'.pending = s.pending)
    (h3 : s'.waiting = s.waiting) (h4 : s'.made = s.made) : Safe P cfg s' :=
  ⟨h1 ▸ h.base, h2 ▸ h.pend, h3 ▸ h.wait, h4 ▸ h.made⟩

theorem Safe.delete {s : Full} (h : Safe P cfg s) (n : Name) : Safe P cfg (s.deletePending n) :=
  ⟨h.base, fun x hx => h.pend x (List.mem_filter.mp hx).1, h.wait, h.made⟩

theorem made_of_micros {s s' : Full} (h : Micros (rules cfg liveP (fun _ => False) (fun _ _ => False) (fun _ => False)) s.view s'.view) :
    s'.made = s.made := h.noPublish (fun _ _ h => h)

theorem OkName.ne {n : Name} (h : OkName P cfg n) : n ≠ [] := by
  obtain ⟨c, d, x, t, rfl, _⟩ := h
  simp

theorem sendSyncInterest_made {s s' : Full} (h : sendSyncInterest cfg s = .ok s') : s'.made = s.made := by
  rcases sendSyncInterest_ok h with ⟨_, rfl⟩ | ⟨_, name, _, ⟨_, _, rfl⟩ | ⟨_, rfl⟩⟩ <;> rfl

theorem sendSyncData_made {s s' : Full} {name : Name} {c : Bytes} {fr : Nat}
    (h : sendSyncData cfg s name c fr = .ok s') : s'.made = s.made := by
  unfold sendSyncData at h
  simp only [Res.bind_eq_ok] at h
  obtain ⟨buf, _, s1, h1, h2⟩ := h
  obtain ⟨r, _, hs1⟩ := publish_ok h1
  have h3 : s1.made = s.made := by
    subst hs1
    simp only
    split <;> rfl
  rw [← h3]
  split at h2
  · exact sendSyncInterest_made h2
  · cases h2; rfl

theorem Safe.sent {s s' : Full} (h : Safe P cfg s) (hc : Core s s') (hm : s'.made = s.made) : Safe P cfg s' :=
  h.congr hc.base hc.pending hc.waiting hm

/-- What may be parked: what was parked before, or the Interest that was received. -/
theorem onDecoded_pend {s s' : Full} {i : Interest} {t : Bool} {ib : Table} {d : IBLTDiff}
    (h : onDecoded cfg s i t ib d = .ok s') :
    ∀ x ∈ s'.pending, x ∈ s.pending ∨ (x.1 = i.name ∧ (x.2.iblt = ib ∨ ∃ e, (i.name, e) ∈ s.pending ∧ x.2.iblt = e.iblt)) := by
  unfold onDecoded at h
  split at h
  · simp only [Res.ok.injEq] at h
    subst h
    have key : ∀ x ∈ s.pending.set i.name ⟨((s.pending.find i.name).getD ⟨ib, 0⟩).iblt, s.now + i.lifetime⟩,
        x ∈ s.pending ∨ (x.1 = i.name ∧ (x.2.iblt = ib ∨ ∃ e, (i.name, e) ∈ s.pending ∧ x.2.iblt = e.iblt)) := by
      intro x hx
      rcases NMap.mem_set hx with rfl | hx
      · refine .inr ⟨rfl, ?_⟩
        cases hf : s.pending.find i.name with
        | none => exact .inl rfl
        | some e => exact .inr ⟨e, NMap.mem_of_find hf, rfl⟩
      · exact .inl hx
    split
    · rw [(markWaiting_fields _ _).2]; exact key
    · exact key
  · split at h
    · simp only [Res.ok.injEq] at h
      subst h
      rw [waitOrGiveUp_pending]
      exact fun x hx => .inl hx
    · generalize collect d.negative s.base d.positive [] = y at h
      obtain ⟨content, b⟩ := y
      simp only at h
      split at h
      · cases h; exact fun x hx => .inl hx
      · simp only [Res.bind_eq_ok, Res.ok.injEq] at h
        obtain ⟨s1, h2, rfl⟩ := h
        have hc := sendSyncData_core h2
        rw [(markWaiting_fields _ _).2, hc.pending]
        exact fun x hx => .inl hx

theorem onUndecodable_pend {s s' : Full} {i : Interest} {t : Bool} {n : Nat} {d : IBLTDiff}
    (h : onUndecodable cfg s i t n d = .ok s') : ∀ x ∈ s'.pending, x ∈ s.pending := by
  unfold onUndecodable at h
  split at h
  · have hw := waitOrGiveUp_pending cfg s i t
    generalize waitOrGiveUp cfg s i t = y at h hw
    obtain ⟨s1, g⟩ := y
    cases g
    · simp only [Res.ok.injEq] at h; subst h; rw [← show s1.pending = s.pending from hw]; exact fun x hx => hx
    · simp only at h
      rw [(sendSyncInterest_core h).pending, show s1.pending = s.pending from hw]; exact fun x hx => hx
  · split at h
    · cases h; exact fun x hx => hx
    · simp only at h
      split at h
      · cases h; rw [(markWaiting_fields _ _).2]; exact fun x hx => hx
      · simp only [Res.bind_eq_ok, Res.ok.injEq] at h
        obtain ⟨s1, h1, rfl⟩ := h
        rw [(markWaiting_fields _ _).2]
        intro x hx
        have := (List.mem_filter.mp hx).1
        rw [(sendSyncData_core h1).pending] at this
        exact this

theorem onSyncInterest_keeps {s s' : Full} (hs : Safe P cfg s) {i : Interest} {t : Bool} (hi : OkName P cfg i.name)
    (h : onSyncInterest cfg s i t = .ok s') : Safe P cfg s' := by
  have hb := onSyncInterest_base hs.base.inv h
  have hm : s'.made = s.made := made_of_micros (onSyncInterest_micro hs.base.inv h)
  have hh := onSyncInterest_handled h
  refine ⟨by rw [hb]; exact hs.base, ?_, ?_, by rw [hm]; exact hs.made⟩
  · rcases onSyncInterest_cases h with ⟨d, _, rfl⟩ | ⟨_, ⟨d, _, _, rfl⟩ | rfl | ⟨c2, c1, num, ib, df, _, h2, _, _, h3, _, h1⟩⟩
    · exact hs.pend
    · exact hs.pend
    · exact hs.pend
    · rcases h1 with ⟨_, h1⟩ | ⟨_, h1⟩
      · exact fun x hx => hs.pend x (onUndecodable_pend h1 x hx)
      · intro x hx
        rcases onDecoded_pend h1 x hx with hx | ⟨hn, h4⟩
        · exact hs.pend x hx
        · refine ⟨by rw [hn]; exact hi.ne, ?_⟩
          rcases h4 with h4 | ⟨e, he, h4⟩
          · obtain ⟨c, d, y, t', hn', _, ht, hok⟩ := hi
            rw [hn', getFromEnd_two, Res.ok.injEq] at h2
            subst h2
            rw [ht, Res.ok.injEq] at h3
            subst h3
            rw [h4]; exact hok
          · rw [h4]; exact (hs.pend _ he).2
  · intro n w hw
    by_cases hn : n = i.name
    · rw [hn]; exact hi
    · rw [hh.other n hn] at hw
      exact hs.wait n w hw

/-- What is assumed about the numbers in `P`: nothing collides, and the budget of the model for decoding suffices. -/
structure Calm (P : Name → Nat → Prop) (cfg : Cfg) : Prop where
  wf : cfg.WF
  pos : 0 < cfg.expected
  apart : NoCollisionsIn cfg.expected P
  fuel : ∀ A B, HashesOf P A → HashesOf P B → diffCount A B < cfg.fuel

theorem onSyncInterest_safe (hc : Calm P cfg) {s : Full} (hs : Safe P cfg s) {i : Interest} {t : Bool}
    (hi : OkName P cfg i.name) : ∃ s', onSyncInterest cfg s i t = .ok s' ∧ Safe P cfg s' := by
  have : ∃ s', onSyncInterest cfg s i t = .ok s' := by
    unfold onSyncInterest
    cases s.pub.replyFromStore i.name with
    | some d => exact ⟨_, rfl⟩
    | none =>
      have hne := hi.ne
      obtain ⟨c, d, x, tb, hn, hx, ht, hok⟩ := hi
      have hd : i.name.drop cfg.syncPrefix.length = [c, d] := by rw [hn, List.drop_left]
      have e2 : i.name.getFromEnd 2 = .ok c := by rw [hn, getFromEnd_two]
      have e1 : i.name.getFromEnd 1 = .ok d := by rw [hn, getFromEnd_last]
      obtain ⟨df, hdf⟩ := diff_ok hc.pos hc.apart hc.fuel hs.base.table hok
      simp only [hd, e2, e1, hx, Res.ok_bind, ht, hdf]
      rw [if_neg (by simp), if_neg (by simp)]
      split
      · exact onUndecodable_total hc.wf hne
      · exact onDecoded_total hc.wf hne
  obtain ⟨s', h⟩ := this
  exact ⟨s', h, onSyncInterest_keeps hs hi h⟩

theorem onSyncInterest_other_safe (hc : Calm P cfg) {s : Full} (hs : Safe P cfg s) {i : Interest} {t : Bool}
    (hi : (i.name.drop cfg.syncPrefix.length).length ≠ 2) : ∃ s', onSyncInterest cfg s i t = .ok s' ∧ Safe P cfg s' := by
  unfold onSyncInterest
  cases s.pub.replyFromStore i.name with
  | some d => exact ⟨_, rfl, hs.congr rfl rfl rfl rfl⟩
  | none =>
    simp only
    split
    · obtain ⟨d, hd⟩ := nackData_total hc.wf.iblt_lossless s.base cfg.syncPrefix
      rw [hd]
      exact ⟨_, rfl, hs.congr rfl rfl rfl rfl⟩
    · exact ⟨_, rfl, hs⟩

theorem Safe.erased {s : Full} (h : Safe P cfg s) (n : Name) : Safe P cfg { s with waiting := s.waiting.erase n } :=
  ⟨h.base, h.pend, fun k w hk => by
    rw [NMap.find_erase] at hk
    split at hk
    · cases hk
    · exact h.wait k w hk, h.made⟩

theorem processOne_safe (hc : Calm P cfg) {s : Full} (hs : Safe P cfg s) (n : Name) :
    ∃ s', processOne cfg s n = .ok s' ∧ Safe P cfg s' := by
  unfold processOne
  cases hw : s.waiting.find n with
  | none => exact ⟨_, rfl, hs⟩
  | some w =>
    simp only
    split
    · exact ⟨_, rfl, hs.erased n⟩
    · have hn := hs.wait n w hw
      have h1 : Safe P cfg { s with waiting := s.waiting.set n { w with numTries := w.numTries + 1 } } := by
        refine ⟨hs.base, hs.pend, fun k w' hk => ?_, hs.made⟩
        simp only [NMap.find_set] at hk
        split at hk
        · rename_i he; rw [← he]; exact hn
        · exact hs.wait k w' hk
      obtain ⟨s1, h2, h3⟩ := onSyncInterest_safe hc h1 (i := ⟨n, defaultLifetime, w.nonce⟩) (t := true) hn
      rw [h2, Res.ok_bind]
      split
      · exact ⟨_, rfl, h3⟩
      · split
        · exact ⟨_, rfl, h3.erased n⟩
        · exact ⟨_, rfl, h3⟩

theorem foldRes_safe {ι : Type} {f : Full → ι → Res Full} {Q : Full → Prop} (l : List ι)
    (h : ∀ s, Q s → ∀ x ∈ l, ∃ s', f s x = .ok s' ∧ Q s') : ∀ s, Q s → ∃ s', foldRes f s l = .ok s' ∧ Q s' := by
  induction l with
  | nil => exact fun s hs => ⟨s, rfl, hs⟩
  | cons x l ih =>
    intro s hs
    obtain ⟨s1, h1, h2⟩ := h s hs x (by simp)
    obtain ⟨s2, h3, h4⟩ := ih (fun s hs y hy => h s hs y (by simp [hy])) s1 h2
    exact ⟨s2, by simp only [foldRes, h1, Res.ok_bind, h3], h4⟩

theorem processWaiting_safe (hc : Calm P cfg) {s : Full} (hs : Safe P cfg s) :
    ∃ s', processWaiting cfg s = .ok s' ∧ Safe P cfg s' :=
  foldRes_safe _ (fun _ h x _ => processOne_safe hc h x) s hs

theorem satisfyPending_safe (hc : Calm P cfg) {s : Full} (hs : Safe P cfg s) (u : Name) :
    ∃ s', satisfyPending cfg s u = .ok s' ∧ Safe P cfg s' ∧ s'.base = s.base := by
  have := foldRes_safe (f := satisfyOne cfg u) (Q := fun m => Safe P cfg m ∧ m.base = s.base) s.pending (fun m hm x hx => by
    obtain ⟨hne, hok⟩ := hs.pend x hx
    obtain ⟨df, hdf⟩ := diff_ok hc.pos hc.apart hc.fuel hm.1.base.table hok
    obtain ⟨m1, h1⟩ := sendSyncData_total hc.wf (s := m) hne (encodeNames (satisfyContent m.base df.positive u)) cfg.freshness
    refine ⟨m1.deletePending x.1, ?_, ?_, ?_⟩
    · unfold satisfyOne; rw [hdf, Res.ok_bind, h1]; rfl
    · exact (hm.1.sent (sendSyncData_core h1) (sendSyncData_made h1)).delete _
    · exact (sendSyncData_core h1).base.trans hm.2) s ⟨hs, rfl⟩
  exact this

theorem call_safe (hc : Calm P cfg) {s : Full} (hs : Safe P cfg s) {t : Name → Option Nat} (ht : s.base.getSeqNo = t)
    (c : Call) (cs : List Call) (hp : ∀ x ∈ publications t (c :: cs), P x.1 x.2) :
    ∃ s', call cfg s c = .ok s' ∧ Safe P cfg s' ∧ ∀ x ∈ publications s'.base.getSeqNo cs, P x.1 x.2 := by
  subst ht
  cases c with
  | addUserNode p =>
    refine ⟨_, rfl, ⟨hs.base.add p, hs.pend, hs.wait, hs.made⟩, ?_⟩
    have : (s.base.addUserNode p).2.getSeqNo = fun x => if p = x then some ((s.base.getSeqNo p).getD 0) else s.base.getSeqNo x :=
      funext fun x => find_addUserNode s.base p x
    show ∀ x ∈ publications (s.base.addUserNode p).2.getSeqNo cs, _
    rw [this]
    exact hp
  | removeUserNode p =>
    obtain ⟨b, h1, h2⟩ := hs.base.remove hc.pos hc.apart p
    refine ⟨{ s with base := b }, by simp only [call, h1, Res.ok_bind], ⟨h2, hs.pend, hs.wait, hs.made⟩, ?_⟩
    have : b.getSeqNo = fun x => if p = x then none else s.base.getSeqNo x := by
      funext x
      unfold Base.getSeqNo
      rw [(removeUserNode_ok h1).1, NMap.find_erase]
    show ∀ x ∈ publications b.getSeqNo cs, _
    rw [this]
    exact hp
  | publishName p seq =>
    simp only [call]
    unfold publishName
    cases hf : s.base.prefixes.find p with
    | none =>
      refine ⟨s, rfl, hs, ?_⟩
      simp only [publications, Base.getSeqNo, hf] at hp
      exact hp
    | some cur =>
      simp only [publications, Base.getSeqNo, hf, List.mem_cons, forall_eq_or_imp] at hp
      obtain ⟨hp1, hp2⟩ := hp
      have hp1 : P p (newSeq seq cur) := by cases seq <;> exact hp1
      have hp2 : ∀ x ∈ publications (fun x => if p = x then some (max cur (newSeq seq cur)) else s.base.prefixes.find x) cs,
          P x.1 x.2 := by cases seq <;> exact hp2
      have hlt : newSeq seq cur < U64 := by
        cases seq <;> exact Nat.mod_lt _ (by decide)
      obtain ⟨b, h1, h2⟩ := hs.base.update hc.pos hc.apart hlt hp1
      simp only [h1, Res.ok_bind]
      have hs1 : Safe P cfg { s with base := b, waitOut := false, made := s.made ++ [(p, newSeq seq cur)] } := by
        refine ⟨h2, hs.pend, hs.wait, fun x hx => ?_⟩
        rcases List.mem_append.mp hx with hx | hx
        · exact hs.made x hx
        · rw [List.mem_singleton.mp hx]; exact hp1
      obtain ⟨s', h3, h4, h5⟩ := satisfyPending_safe hc hs1 (Name.appendNumber p (newSeq seq cur))
      refine ⟨s', h3, h4, ?_⟩
      have : s'.base.getSeqNo = fun x => if p = x then some (max cur (newSeq seq cur)) else s.base.prefixes.find x := by
        funext x
        rw [h5]
        show b.prefixes.find x = _
        rw [find_updateSeqNo h1 x, hf]
        rfl
      rw [this]
      exact hp2

theorem calls_safe (hc : Calm P cfg) (cs : List Call) : ∀ {s : Full}, Safe P cfg s →
    (∀ x ∈ publications s.base.getSeqNo cs, P x.1 x.2) → ∃ s', foldRes (call cfg) s cs = .ok s' ∧ Safe P cfg s' := by
  induction cs with
  | nil => exact fun hs _ => ⟨_, rfl, hs⟩
  | cons c cs ih =>
    intro s hs hp
    obtain ⟨s1, h1, h2, h3⟩ := call_safe hc hs rfl c cs hp
    obtain ⟨s2, h4, h5⟩ := ih h2 h3
    exact ⟨s2, by simp only [foldRes, h1, Res.ok_bind, h4], h5⟩

theorem merge_safe (hc : Calm P cfg) (face : Nat) (ns : List Name) : ∀ {b : Base} (acc : List MissingDataInfo),
    OkBase P cfg.expected b → (∀ n ∈ ns, ∃ p q, P p q ∧ announced n = some (p, q)) →
    ∃ r, merge face b ns acc = .ok r ∧ OkBase P cfg.expected r.2 := by
  induction ns with
  | nil => exact fun acc hb _ => ⟨_, rfl, hb⟩
  | cons n ns ih =>
    intro b acc hb hn
    obtain ⟨p, q, hpq, ha⟩ := hn n (by simp)
    obtain ⟨c, e1, e2, e3⟩ := of_announced ha
    have hn' := fun m hm => hn m (List.mem_cons_of_mem _ hm)
    unfold merge
    rw [e1, Res.ok_bind, e2, Res.ok_bind, e3]
    split
    · obtain ⟨b1, h1, h2⟩ := (hb.index p).update hc.pos hc.apart (toNumber_lt e2) hpq
      obtain ⟨r, h3, h4⟩ := ih (acc ++ [⟨p, ((b.index p).1 + 1) % U64, q, face⟩]) h2 hn'
      exact ⟨r, by simp only [h1, Res.ok_bind]; exact h3, h4⟩
    · exact ih acc hb hn'

theorem onSyncData_safe (hc : Calm P cfg) {s : Full} (hs : Safe P cfg s) (name : Name) (buf : Bytes) (acts : List Call)
    (hn : ∀ n ∈ namesIn cfg buf, ∃ p q, P p q ∧ announced n = some (p, q))
    (hp : ∀ x ∈ publications (fun p => best p (s.base.getSeqNo p) ((namesIn cfg buf).filterMap announced)) acts, P x.1 x.2) :
    ∃ s', onSyncData cfg s name buf acts = .ok s' ∧ Safe P cfg s' := by
  unfold onSyncData
  rw [namesIn_eq] at hn hp
  cases hd : decodeReply cfg buf with
  | none => exact ⟨_, rfl, hs.delete name⟩
  | some ns =>
    rw [hd] at hn hp
    simp only [Option.getD_some] at hn hp
    simp only
    obtain ⟨r, hr, hok⟩ := merge_safe hc (s.deletePending name).incomingFace ns [] (hs.delete name).base hn
    rw [hr, Res.ok_bind]
    have h1 : Safe P cfg { s.deletePending name with base := r.2 } := ⟨hok, (hs.delete name).pend, hs.wait, hs.made⟩
    split
    · exact ⟨_, rfl, h1.congr rfl rfl rfl rfl⟩
    · obtain ⟨ps, h2, h3⟩ := merge_best ns hr
      have h4 : r.2.getSeqNo = fun p => best p (s.base.getSeqNo p) (ns.filterMap announced) := by
        funext p
        have : ns.filterMap announced = ps := by
          have h0 : (ns.map announced).filterMap id = (ps.map some).filterMap id := by rw [h2]
          simpa [List.filterMap_map] using h0
        rw [this]
        exact h3 p
      obtain ⟨s2, h5, h6⟩ := calls_safe hc acts (s := ({ s.deletePending name with base := r.2 } : Full).emit (.update r.1))
        (h1.congr rfl rfl rfl rfl) (by
          show ∀ x ∈ publications r.2.getSeqNo acts, _
          rw [h4]; exact hp)
      rw [h5, Res.ok_bind]
      exact processWaiting_safe hc (h6.congr rfl rfl rfl rfl)

theorem step_safe (hc : Calm P cfg) {s : Full} (hs : Safe P cfg s) {op : Op}
    (hi : ∀ i, op = .recvInterest i → OkName P cfg i.name ∨ (i.name.drop cfg.syncPrefix.length).length ≠ 2)
    (hd : ∀ buf acts, op = .complete buf acts → ∀ n ∈ namesIn cfg buf, ∃ p q, P p q ∧ announced n = some (p, q))
    (hp : ∀ x ∈ numbersOf cfg s op, P x.1 x.2) : ∃ s', step cfg s op = .ok s' ∧ Safe P cfg s' := by
  cases op with
  | call c =>
    obtain ⟨s', h1, h2, _⟩ := call_safe hc hs rfl c [] hp
    exact ⟨s', h1, h2⟩
  | recvInterest i =>
    simp only [step]
    split
    · rcases hi i rfl with h | h
      · exact onSyncInterest_safe hc hs h
      · exact onSyncInterest_other_safe hc hs h
    · exact ⟨_, rfl, hs⟩
  | segment face =>
    simp only [step]
    split
    · refine ⟨_, rfl, ?_⟩
      split
      · exact hs.congr rfl rfl rfl rfl
      · exact hs
    · exact ⟨_, rfl, hs⟩
  | complete buf acts =>
    simp only [step]
    split
    · split
      · exact onSyncData_safe hc (s := s.stopFetcher) (hs.congr rfl rfl rfl rfl) _ _ _ (hd buf acts rfl) hp
      · exact ⟨_, rfl, hs⟩
    · exact ⟨_, rfl, hs⟩
  | error timeout =>
    simp only [step]
    split
    · split
      · refine ⟨_, rfl, ?_⟩
        split <;> exact hs.congr rfl rfl rfl rfl
      · exact ⟨_, rfl, hs⟩
    · exact ⟨_, rfl, hs⟩
  | tick t =>
    simp only [step]
    refine ⟨_, rfl, ?_⟩
    split
    · exact hs.congr rfl rfl rfl rfl
    · exact hs
  | fireSync =>
    have send : ∀ m : Full, Safe P cfg m → ∃ s', sendSyncInterest cfg m = .ok s' ∧ Safe P cfg s' := by
      intro m hm
      obtain ⟨s', h⟩ := sendSyncInterest_total hc.wf.iblt_lossless m
      exact ⟨s', h, hm.sent (sendSyncInterest_core h) (sendSyncInterest_made h)⟩
    simp only [step]
    split
    · split
      · split
        · exact send _ (hs.congr rfl rfl rfl rfl)
        · exact send _ (hs.congr rfl rfl rfl rfl)
      · exact ⟨_, rfl, hs⟩
    · exact ⟨_, rfl, hs⟩
  | fireDelay =>
    simp only [step]
    split
    · split
      · obtain ⟨s1, h1, h2⟩ := processWaiting_safe hc (s := { s with delayTimer := none }) (hs.congr rfl rfl rfl rfl)
        rw [h1, Res.ok_bind]
        refine ⟨_, rfl, ?_⟩
        rw [scheduleProcess_eq]
        exact h2.congr rfl rfl rfl rfl
      · exact ⟨_, rfl, hs⟩
    · exact ⟨_, rfl, hs⟩
  | expire name =>
    simp only [step]
    split
    · refine ⟨_, rfl, ?_⟩
      split
      · exact hs.delete _
      · exact hs
    · exact ⟨_, rfl, hs⟩
  | fireStore => exact ⟨_, rfl, hs.congr rfl rfl rfl rfl⟩

theorem init_safe {s : Full} (h : init cfg = .ok s) : Safe P cfg s := by
  have hc := sendSyncInterest_core h
  refine Safe.congr (s := fresh cfg) ⟨okBase_new cfg, by simp [fresh], by simp [fresh], by simp [fresh]⟩ hc.base hc.pending hc.waiting
    (sendSyncInterest_made h)

end
end Full
end PSync
