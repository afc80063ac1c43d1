import Verif.Spec.Group
import Verif.Proofs.MicroLog
import Verif.Proofs.Answer
/-!
Groups of full-sync nodes: every fetch delivers a reply of one node, and no number is invented.
-/
namespace PSync
open Spec Base

theorem segmentData_few (name : Name) (bs : Bytes) (fr : Nat) (h : bs.length < 2 ^ 64) :
    (segmentData name bs fr).length < 2 ^ 64 + 1 := by
  rw [segmentData_length]
  obtain ⟨h1, h2, _, _, h5⟩ := chunks_spec bs
  by_cases hb : bs = []
  · subst hb
    have : chunks maxSegment [] = [[]] := by decide
    rw [this]; simp
  · have h5 := h5 hb
    have key : ∀ cs : List Bytes, (∀ c ∈ cs, c ≠ []) → cs.length ≤ cs.flatten.length := by
      intro cs
      induction cs with
      | nil => simp
      | cons c cs ih =>
        intro h
        have h0 := List.length_pos_iff.mpr (h c (by simp))
        have := ih (fun x hx => h x (by simp [hx]))
        simp only [List.length_cons, List.flatten_cons, List.length_append]
        omega
    have := key _ h5
    rw [h2] at this
    omega

/-! ### Replies in the store and in the log -/

/-- Every packet in the store, and every packet in the log that is not a nack, belongs to a recorded reply. -/
structure Recorded (ρ : Rules) (v : View) : Prop where
  store : ∀ d ∈ v.pub.store, ∃ (k : Nat) (e : Name × Bytes × Nat), v.replies[k]? = some e ∧
    d ∈ segmentData (e.1.appendVersion (ρ.version k)) e.2.1 e.2.2
  log : ∀ d, Out.data d ∈ v.log → (∃ b, ρ.nack b d) ∨ ∃ (k : Nat) (e : Name × Bytes × Nat), v.replies[k]? = some e ∧
    d ∈ segmentData (e.1.appendVersion (ρ.version k)) e.2.1 e.2.2

theorem Micro.recorded {ρ : Rules} {v v' : View} (h : Micro ρ v v') (hr : Recorded ρ v) : Recorded ρ v' := by
  cases h with
  | add p => exact ⟨hr.store, hr.log⟩
  | remove p b' hp h => exact ⟨hr.store, hr.log⟩
  | publish p q b' hp hq hreg h => exact ⟨hr.store, hr.log⟩
  | merge us b' hm hu h => exact ⟨hr.store, fun d hd => hr.log d (by simpa using hd)⟩
  | interest n lt h => exact ⟨hr.store, fun d hd => hr.log d (by simpa using hd)⟩
  | stored n d h =>
    refine ⟨hr.store, fun d' hd => ?_⟩
    rcases List.mem_append.mp hd with hd | hd
    · exact hr.log d' hd
    · simp only [List.mem_singleton, Out.data.injEq] at hd
      subst hd
      exact Or.inr (hr.store d' (storeFind_some h).1)
  | nack d h =>
    refine ⟨hr.store, fun d' hd => ?_⟩
    rcases List.mem_append.mp hd with hd | hd
    · exact hr.log d' hd
    · simp only [List.mem_singleton, Out.data.injEq] at hd
      subst hd
      exact Or.inl ⟨_, h⟩
  | data now iname dname buf fr r hd h =>
    have up : ∀ d, (∃ (k : Nat) (e : Name × Bytes × Nat), v.replies[k]? = some e ∧ d ∈ segmentData (e.1.appendVersion (ρ.version k)) e.2.1 e.2.2) →
        ∃ (k : Nat) (e : Name × Bytes × Nat), (v.replies ++ [(dname, buf, fr)])[k]? = some e ∧
          d ∈ segmentData (e.1.appendVersion (ρ.version k)) e.2.1 e.2.2 := by
      rintro d ⟨k, e, h1, h2⟩
      refine ⟨k, e, ?_, h2⟩
      rw [List.getElem?_append_left (List.getElem?_eq_some_iff.mp h1).1]
      exact h1
    have new : ∀ d ∈ segmentData (dname.appendVersion (ρ.version v.replies.length)) buf fr,
        ∃ (k : Nat) (e : Name × Bytes × Nat), (v.replies ++ [(dname, buf, fr)])[k]? = some e ∧
          d ∈ segmentData (e.1.appendVersion (ρ.version k)) e.2.1 e.2.2 :=
      fun d hd => ⟨v.replies.length, (dname, buf, fr), by simp, hd⟩
    refine ⟨fun d hd' => ?_, fun d hd' => ?_⟩
    · simp only [(publish_ok h).1] at hd'
      rcases storeFold_mem _ hd' with hd' | hd'
      · exact up d (hr.store d hd')
      · exact new d hd'
    · rcases List.mem_append.mp hd' with hd' | hd'
      · exact (hr.log d hd').imp id (up d)
      · obtain ⟨d', h1, h2⟩ := List.mem_map.mp hd'
        simp only [Out.data.injEq] at h2
        subst h2
        exact Or.inr (new d' (publish_data_mem h h1))
  | fire t => exact ⟨fun d hd => hr.store d (fire_mem.mp hd).1, hr.log⟩
  | tick t => exact ⟨hr.store, hr.log⟩

theorem Micros.recorded {ρ : Rules} {v v' : View} (h : Micros ρ v v') (hr : Recorded ρ v) : Recorded ρ v' := by
  induction h with
  | refl => exact hr
  | tail _ h ih => exact h.recorded ih

theorem Micro.replies {ρ : Rules} {a b : View} (h : Micro ρ a b) : a.replies <+: b.replies := by
  cases h with
  | data now iname dname buf fr r hd h => exact List.prefix_append _ _
  | _ => exact List.prefix_refl _

theorem Micros.replies {ρ : Rules} {a b : View} (h : Micros ρ a b) : a.replies <+: b.replies := by
  induction h with
  | refl => exact List.prefix_refl _
  | tail _ h ih => exact ih.trans h.replies

theorem Micro.log {ρ : Rules} {a b : View} (h : Micro ρ a b) : a.log <+: b.log := by
  cases h with
  | merge => exact List.prefix_append _ _
  | interest => exact List.prefix_append _ _
  | stored => exact List.prefix_append _ _
  | nack => exact List.prefix_append _ _
  | data => exact List.prefix_append _ _
  | _ => exact List.prefix_refl _

theorem Micros.log {ρ : Rules} {a b : View} (h : Micros ρ a b) : a.log <+: b.log := by
  induction h with
  | refl => exact List.prefix_refl _
  | tail _ h ih => exact ih.trans h.log

theorem Full.reach_recorded {cfg : Cfg} {s : Full} (h : Reach cfg s) {d : Data} (hd : Out.data d ∈ s.log) :
    (∃ b, nackData cfg b cfg.syncPrefix = .ok d) ∨ ∃ (k : Nat) (e : Name × Bytes × Nat), s.replies[k]? = some e ∧
      d ∈ segmentData (e.1.appendVersion (cfg.version k)) e.2.1 e.2.2 := by
  obtain ⟨ops, hm⟩ := Full.reach_micro h
  exact (hm.recorded ⟨by simp [SegPub.empty], by simp⟩).log d hd

/-! ### Where the numbers come from -/

/-- Every number in a history satisfies `K`. -/
def HistSourced (K : Name → Nat → Prop) (h : List BaseEv) : Prop :=
  ∀ p old new m, BaseEv.update p old new m ∈ h → K p new ∧ ∀ p' q, m.find p' = some q → q = 0 ∨ K p' q

/-- Every number in a table and in its history satisfies `K`. -/
structure TableSourced (K : Name → Nat → Prop) (b : Base) : Prop where
  table : ∀ p q, b.prefixes.find p = some q → q = 0 ∨ K p q
  hist : HistSourced K b.hist

theorem TableSourced.add {K : Name → Nat → Prop} {b : Base} (h : TableSourced K b) (p : Name) :
    TableSourced K (b.addUserNode p).2 := by
  refine ⟨fun p' q hp => ?_, by rw [addUserNode_hist]; exact h.hist⟩
  simp only [find_addUserNode] at hp
  split at hp
  · rename_i he
    subst he
    cases hf : b.prefixes.find p with
    | none => left; rw [hf] at hp; simpa using hp.symm
    | some s => rw [hf] at hp; exact h.table p q (by rw [hf]; exact hp)
  · exact h.table p' q hp

theorem TableSourced.remove {K : Name → Nat → Prop} {b b' : Base} (h : TableSourced K b) {p : Name}
    (hr : b.removeUserNode p = .ok b') : TableSourced K b' := by
  obtain ⟨h1, _, h2⟩ := removeUserNode_ok hr
  refine ⟨fun p' q hp' => ?_, ?_⟩
  · rw [h1, NMap.find_erase] at hp'
    split at hp'
    · simp at hp'
    · exact h.table p' q hp'
  · rw [h2]
    intro p' old new m hm
    split at hm
    · exact h.hist p' old new m hm
    · exact h.hist p' old new m (by simpa using hm)

theorem TableSourced.update {K : Name → Nat → Prop} {b b' : Base} (h : TableSourced K b) {p : Name} {q : Nat}
    (hK : K p q) (hu : b.updateSeqNo p q = .ok b') : TableSourced K b' := by
  rcases updateSeqNo_ok hu with ⟨rfl, _⟩ | ⟨s, b1, t, hp, hlt, h1, _, _, _, _, rfl⟩
  · exact h
  · have ht : ∀ p' q', (b.prefixes.set p q).find p' = some q' → q' = 0 ∨ K p' q' := by
      intro p' q' hp'
      rw [NMap.find_set] at hp'
      split at hp'
      · rename_i he
        subst he
        cases hp'
        exact Or.inr hK
      · exact h.table p' q' hp'
    refine ⟨ht, ?_⟩
    intro p' old new m hm
    rcases List.mem_append.mp hm with hm | hm
    · exact h.hist p' old new m hm
    · simp only [List.mem_singleton, BaseEv.update.injEq] at hm
      obtain ⟨rfl, rfl, rfl, rfl⟩ := hm
      exact ⟨hK, ht⟩

theorem TableSourced.mono {K K' : Name → Nat → Prop} (hK : ∀ p q, K p q → K' p q) {b : Base}
    (h : TableSourced K b) : TableSourced K' b :=
  ⟨fun p q hp => (h.table p q hp).imp id (hK p q), fun p old new m hm =>
    ⟨hK _ _ (h.hist p old new m hm).1, fun p' q hp => ((h.hist p old new m hm).2 p' q hp).imp id (hK _ _)⟩⟩

theorem TableSourced.merge {K : Name → Nat → Prop} {b b' : Base} {us : List MissingDataInfo} (hm : MergeRel b us b')
    (hK : ∀ u ∈ us, K u.pfx u.highSeq) (h : TableSourced K b) : TableSourced K b' := by
  induction hm with
  | nil b => exact h
  | newer p q face hq hn h1 _ ih =>
    exact ih (fun u hu => hK u (by simp [hu])) ((h.add p).update (hK _ List.mem_cons_self) h1)

/-- Every number in the table, in the replies and in the notifications satisfies `K`. -/
structure Sourced (K : Name → Nat → Prop) (cfg : Cfg) (v : View) : Prop where
  base : TableSourced K v.base
  replies : ∀ e ∈ v.replies, Full.Carries cfg (fun n => ∃ p q, K p q ∧ q < U64 ∧ n = Name.appendNumber p q) e.2.1
  updates : ∀ us, Out.update us ∈ v.log → ∀ u ∈ us, K u.pfx u.highSeq

theorem Sourced.mono {K K' : Name → Nat → Prop} (hK : ∀ p q, K p q → K' p q) {cfg : Cfg} {v : View}
    (h : Sourced K cfg v) : Sourced K' cfg v := by
  refine ⟨h.base.mono hK, ?_, fun us hu u hm => hK _ _ (h.updates us hu u hm)⟩
  intro e he
  obtain ⟨content, h1, h2, h3⟩ := h.replies e he
  exact ⟨content, h1, fun n hn => by obtain ⟨p, q, h4, h5⟩ := h2 n hn; exact ⟨p, q, hK p q h4, h5⟩, h3⟩

theorem Micro.sourced {K : Name → Nat → Prop} {cfg : Cfg} {R : Name → Prop} {L : Name → Nat → Prop}
    {M : List MissingDataInfo → Prop} {v v' : View} (h : Micro (Full.rules cfg Full.knownP R L M) v v')
    (hi : v.base.Inv) (hmade : ∀ p q, (p, q) ∈ v'.made → K p q) (hM : ∀ us, M us → ∀ u ∈ us, K u.pfx u.highSeq)
    (hs : Sourced K cfg v) : Sourced K cfg v' := by
  have upd : ∀ o : Out, (∀ us, o ≠ .update us) → ∀ us, Out.update us ∈ v.log ++ [o] → ∀ u ∈ us, K u.pfx u.highSeq := by
    intro o ho us hu
    rcases List.mem_append.mp hu with hu | hu
    · exact hs.updates us hu
    · exact absurd (List.mem_singleton.mp hu).symm (ho us)
  cases h with
  | add p => exact ⟨hs.base.add p, hs.replies, hs.updates⟩
  | remove p b' hp h => exact ⟨hs.base.remove h, hs.replies, hs.updates⟩
  | publish p q b' hp hq hreg h => exact ⟨hs.base.update (hmade _ _ (by simp)) h, hs.replies, hs.updates⟩
  | merge us b' hm hu h =>
    refine ⟨hs.base.merge h (hM us hm), hs.replies, ?_⟩
    intro us' hu'
    rcases List.mem_append.mp hu' with hu' | hu'
    · exact hs.updates us' hu'
    · simp only [List.mem_singleton, Out.update.injEq] at hu'
      subst hu'
      exact hM us' hm
  | interest n lt h => exact ⟨hs.base, hs.replies, upd _ (by simp)⟩
  | stored n d h => exact ⟨hs.base, hs.replies, upd _ (by simp)⟩
  | nack d h => exact ⟨hs.base, hs.replies, upd _ (by simp)⟩
  | data now iname dname buf fr r hd h =>
    refine ⟨hs.base, ?_, ?_⟩
    · intro e he
      rcases List.mem_append.mp he with he | he
      · exact hs.replies e he
      · rw [List.mem_singleton.mp he]
        obtain ⟨content, h1, h2, h3⟩ := hd
        refine ⟨content, h1, fun n hn => ?_, h3⟩
        rcases h2 n hn with ⟨p, s, hp, hs0, rfl⟩ | ⟨_, p, q, hm, hq, rfl⟩
        · exact ⟨p, s, (hs.base.table p s hp).resolve_left hs0, hi.lt p s hp, rfl⟩
        · exact ⟨p, q, hmade p q hm, hq, rfl⟩
    · intro us hu
      rcases List.mem_append.mp hu with hu | hu
      · exact hs.updates us hu
      · simp at hu
  | fire t => exact ⟨hs.base, hs.replies, hs.updates⟩
  | tick t => exact ⟨hs.base, hs.replies, hs.updates⟩

theorem Micros.sourced {K : Name → Nat → Prop} {cfg : Cfg} {R : Name → Prop} {L : Name → Nat → Prop}
    {M : List MissingDataInfo → Prop} {v v' : View} (h : Micros (Full.rules cfg Full.knownP R L M) v v')
    (hi : v.base.Inv) (hmade : ∀ p q, (p, q) ∈ v'.made → K p q) (hM : ∀ us, M us → ∀ u ∈ us, K u.pfx u.highSeq)
    (hs : Sourced K cfg v) : Sourced K cfg v' := by
  induction h with
  | refl => exact hs
  | tail h1 h2 ih =>
    exact h2.sourced ((Micros.steps h1).inv hi) hmade hM (ih (fun p q hm => hmade p q (h2.made.subset hm)))

/-! ### What a fetch can deliver -/

theorem nackData_name {cfg : Cfg} {b : Base} {n : Name} {d : Data} (h : nackData cfg b n = .ok d) :
    ∃ bs, d.name = n ++ [⟨8, bs⟩] ++ [⟨50, nniBytes 0⟩] := by
  unfold nackData Table.toComponent at h
  simp only [Res.bind_eq_ok, Res.ok.injEq] at h
  obtain ⟨c, ⟨bs, _, rfl⟩, rfl⟩ := h
  exact ⟨bs, rfl⟩

theorem syncName_form {cfg : Cfg} {b : Base} {n : Name} (h : Full.syncName cfg b = .ok n) :
    ∃ c x, n = cfg.syncPrefix ++ [c] ++ [⟨8, x⟩] := by
  unfold Full.syncName at h
  simp only [Res.bind_eq_ok, Res.ok.injEq] at h
  obtain ⟨c, _, rfl⟩ := h
  exact ⟨c, _, rfl⟩

/-- The packets of a completed fetch are exactly one recorded reply of one node. -/
theorem fetched_reply {ι : Type} {cfg : ι → Cfg} (hg : IsGroup cfg) {g : ι → Full} (hsane : Sane cfg g)
    (hr : ∀ i, Full.Reach (cfg i) (g i)) {i : ι} {n : Name} {lt : Nat} (hn : Out.interest n lt ∈ (g i).log)
    {segs : List Data} {buf : Bytes} (hf : Fetched (SentBy g) n segs buf) :
    ∃ (j : ι) (k : Nat) (e : Name × Bytes × Nat), (g j).replies[k]? = some e ∧
      segs = segmentData (e.1.appendVersion ((cfg j).version k)) e.2.1 e.2.2 ∧ buf = e.2.1 := by
  obtain ⟨hpk, ⟨v, hv⟩, ⟨d0, h0, hpre⟩, ⟨dl, hdl, hfin⟩, hfew, hcon⟩ := hf
  obtain ⟨b, _, hnb, _⟩ := Full.reach_log (hr i) hn
  obtain ⟨c, x, hname⟩ := syncName_form hnb
  have src : ∀ d ∈ segs, (∃ bs, d.name = (cfg i).syncPrefix ++ [⟨8, bs⟩] ++ [⟨50, nniBytes 0⟩]) ∨
      ∃ (j : ι) (k : Nat) (e : Name × Bytes × Nat), (g j).replies[k]? = some e ∧ d ∈ segmentData (e.1.appendVersion ((cfg j).version k)) e.2.1 e.2.2 := by
    intro d hd
    obtain ⟨j, hj⟩ := hpk d hd
    rcases Full.reach_recorded (hr j) hj with ⟨b, h⟩ | ⟨k, e, h1, h2⟩
    · left
      rw [← (hg.same j i).syncPrefix] at h
      exact nackData_name h
    · exact Or.inr ⟨j, k, e, h1, h2⟩
  -- a packet of a recorded reply: its number and the name it was published under
  have blob : ∀ (m : Nat) (d : Data), segs[m]? = some d → ∀ (j : ι) (k : Nat) (e : Name × Bytes × Nat), (g j).replies[k]? = some e →
      d ∈ segmentData (e.1.appendVersion ((cfg j).version k)) e.2.1 e.2.2 →
      v = e.1.appendVersion ((cfg j).version k) ∧
        (segmentData (e.1.appendVersion ((cfg j).version k)) e.2.1 e.2.2)[m]? = some d := by
    intro m d hm j k e he hd
    have hsp := segmentData_spec (e.1.appendVersion ((cfg j).version k)) e.2.1 e.2.2
    obtain ⟨m', hm'⟩ := List.mem_iff_getElem?.mp hd
    have e1 := hv m d hm
    have e2 := hsp.name m' d hm'
    rw [e1] at e2
    have e3 := List.append_inj_left' e2 rfl
    have e4 := (List.append_inj_right' e2 rfl).symm
    simp only [List.cons.injEq, Tlv.mk.injEq, true_and, and_true] at e4
    have l1 := (List.getElem?_eq_some_iff.mp hm).1
    have l2 := (List.getElem?_eq_some_iff.mp hm').1
    have l3 := segmentData_few (e.1.appendVersion ((cfg j).version k)) e.2.1 e.2.2
      (hsane.buffers j e (List.mem_of_getElem? he)).1
    have := nniBytes_inj (x := m') (y := m) (by omega) (by omega) e4
    subst this
    exact ⟨e3, hm'⟩
  -- the first packet
  obtain ⟨j, k, e, he, hd0⟩ : ∃ (j : ι) (k : Nat) (e : Name × Bytes × Nat), (g j).replies[k]? = some e ∧
      d0 ∈ segmentData (e.1.appendVersion ((cfg j).version k)) e.2.1 e.2.2 := by
    rcases src d0 (List.mem_of_getElem? h0) with ⟨bs, h⟩ | h
    · exfalso
      rw [hname, h] at hpre
      have := hpre.eq_of_length (by simp)
      have := List.append_inj_right' this rfl
      simp at this
    · exact h
  obtain ⟨hve, hd0'⟩ := blob 0 d0 h0 j k e he hd0
  have klt : ∀ {j k e}, (g j).replies[k]? = some e → k < (g j).replies.length :=
    fun h => (List.getElem?_eq_some_iff.mp h).1
  have all : ∀ (m : Nat) (d : Data), segs[m]? = some d → (segmentData (e.1.appendVersion ((cfg j).version k)) e.2.1 e.2.2)[m]? = some d := by
    intro m d hm
    rcases src d (List.mem_of_getElem? hm) with ⟨bs, h⟩ | ⟨j', k', e', he', hd'⟩
    · exfalso
      rw [hv m d hm, hve] at h
      have := List.append_inj_left' h rfl
      unfold Name.appendVersion at this
      have := List.append_inj_right' this rfl
      simp [TlvType.version] at this
    · obtain ⟨h1, h2⟩ := blob m d hm j' k' e' he' hd'
      rw [hve] at h1
      unfold Name.appendVersion at h1
      have h3 := List.append_inj_right' h1 rfl
      simp only [List.cons.injEq, Tlv.mk.injEq, true_and, and_true] at h3
      have h4 := nniBytes_inj (hsane.version_lt j k (klt he)) (hsane.version_lt j' k' (klt he')) h3
      obtain ⟨rfl, rfl⟩ := hsane.versions j j' k (klt he) k' (klt he') h4
      rw [he, Option.some.injEq] at he'
      subst he'
      exact h2
  have hsp := segmentData_spec (e.1.appendVersion ((cfg j).version k)) e.2.1 e.2.2
  have hfew' := segmentData_few (e.1.appendVersion ((cfg j).version k)) e.2.1 e.2.2
      (hsane.buffers j e (List.mem_of_getElem? he)).1
  have hpos : 0 < segs.length := (List.getElem?_eq_some_iff.mp h0).1
  have hlen : segs.length = (segmentData (e.1.appendVersion ((cfg j).version k)) e.2.1 e.2.2).length := by
    obtain ⟨m, hm⟩ := List.mem_iff_getElem?.mp hdl
    have h1 := hsp.final dl (List.mem_of_getElem? (all m dl hm))
    rw [h1] at hfin
    simp only [Option.some.injEq, Tlv.mk.injEq, true_and] at hfin
    have := nniBytes_inj (by have := hsp.nonempty; omega) (by omega) hfin
    have := hsp.nonempty
    omega
  have hsegs : segs = segmentData (e.1.appendVersion ((cfg j).version k)) e.2.1 e.2.2 := by
    apply List.ext_getElem?
    intro m
    cases hm : segs[m]? with
    | some d => exact (all m d hm).symm
    | none =>
      rw [List.getElem?_eq_none_iff] at hm
      exact (List.getElem?_eq_none_iff.mpr (by omega)).symm
  refine ⟨j, k, e, he, hsegs, ?_⟩
  rw [hcon, hsegs]
  exact hsp.content

/-! ### Runs -/

theorem Full.Reach.next {cfg : Cfg} {s s' : Full} {op : Full.Op} (h : Full.Reach cfg s) (hs : Full.step cfg s op = .ok s') :
    Full.Reach cfg s' := by
  obtain ⟨s0, ops, h1, h2⟩ := h
  refine ⟨s0, ops ++ [op], h1, ?_⟩
  unfold Full.run
  rw [foldRes_append]
  unfold Full.run at h2
  rw [h2]
  simp [Res.bind, foldRes, hs]

section
variable {ι : Type} {cfg : ι → Cfg} {g : Nat → ι → Full} {who : Nat → ι} {what : Nat → Full.Op} {len : Nat}

theorem Spec.GRun.reach (h : GRun cfg g who what len) {n : Nat} (hn : n ≤ len) (i : ι) : Full.Reach (cfg i) (g n i) := by
  induction n generalizing i with
  | zero => exact ⟨g 0 i, [], h.init i, rfl⟩
  | succ n ih =>
    have hs := h.step n (by omega)
    by_cases hi : i = who n
    · subst hi
      exact (ih (by omega) _).next hs.step
    · rw [hs.others i hi]
      exact ih (by omega) i

theorem Micro.newMade {ρ : Rules} {v v' : View} (h : Micro ρ v v') {e : Name × Nat} (he : e ∈ v'.made) :
    e ∈ v.made ∨ ρ.publish e.1 e.2 := by
  cases h with
  | publish p q b' hq _ _ h =>
    rcases List.mem_append.mp he with he | he
    · exact .inl he
    · rw [List.mem_singleton.mp he]; exact .inr hq
  | _ => exact .inl he

theorem Micros.newMade {ρ : Rules} {v v' : View} (h : Micros ρ v v') {e : Name × Nat} (he : e ∈ v'.made) :
    e ∈ v.made ∨ ρ.publish e.1 e.2 := by
  induction h with
  | refl => exact .inl he
  | tail _ h ih => exact (h.newMade he).elim ih .inr

theorem Micro.newReplies {ρ : Rules} {v v' : View} (h : Micro ρ v v') {e : Name × Bytes × Nat} (he : e ∈ v'.replies) :
    e ∈ v.replies ∨ ∃ b m, ρ.data b m e.1 e.2.1 := by
  cases h with
  | data now iname dname buf fr r hd h =>
    rcases List.mem_append.mp he with he | he
    · exact .inl he
    · rw [List.mem_singleton.mp he]; exact .inr ⟨_, _, hd⟩
  | _ => exact .inl he

/-- A reply that was not recorded before was permitted. -/
theorem Micros.newReplies {ρ : Rules} {v v' : View} (h : Micros ρ v v') {e : Name × Bytes × Nat} (he : e ∈ v'.replies) :
    e ∈ v.replies ∨ ∃ b m, ρ.data b m e.1 e.2.1 := by
  induction h with
  | refl => exact .inl he
  | tail _ h ih => exact (h.newReplies he).elim ih .inr

theorem Micro.noPublish {ρ : Rules} {v v' : View} (h : Micro ρ v v') (hp : ∀ p q, ¬ ρ.publish p q) : v'.made = v.made := by
  cases h with
  | publish p q b' hq _ _ h => exact absurd hq (hp p q)
  | _ => rfl

theorem Micros.noPublish {ρ : Rules} {v v' : View} (h : Micros ρ v v') (hp : ∀ p q, ¬ ρ.publish p q) : v'.made = v.made := by
  induction h with
  | refl => rfl
  | tail _ h ih => rw [h.noPublish hp, ih]

theorem Full.init_made {cfg : Cfg} {s : Full} (h : Full.init cfg = .ok s) : s.made = [] :=
  (Full.init_micro h []).noPublish (fun _ _ hx => by simp [Full.runRules, Full.rules] at hx)

/-- What happens to one node between two moments of a run. -/
def spanRules (cfg : ι → Cfg) (what : Nat → Full.Op) (m n : Nat) (i : ι) : Rules :=
  Full.rules (cfg i) Full.knownP (fun p => ∃ k, m ≤ k ∧ k < n ∧ (what k).Removes p)
    (fun p _ => ∃ k, m ≤ k ∧ k < n ∧ (what k).Publishes p) (fun _ => True)

theorem Spec.GRun.span (h : GRun cfg g who what len) {m n : Nat} (hmn : m ≤ n) (hn : n ≤ len) (i : ι) :
    Micros (spanRules cfg what m n i) (g m i).view (g n i).view := by
  induction n, hmn using Nat.le_induction with
  | base => exact Micros.refl
  | succ n hmn ih =>
    have hs := h.step n (by omega)
    have h1 : Micros (spanRules cfg what m (n + 1) i) (g m i).view (g n i).view :=
      (ih (by omega)).mono (Full.rules_le (fun _ _ _ h => h) (fun _ ⟨k, h1, h2, h3⟩ => ⟨k, h1, by omega, h3⟩)
        (fun _ _ ⟨k, h1, h2, h3⟩ => ⟨k, h1, by omega, h3⟩) (fun _ h => h))
    by_cases hi : i = who n
    · subst hi
      exact h1.trans ((Full.step_micro (Full.reach_inv (h.reach (by omega) _)) hs.step).mono
        (Full.rules_le (fun _ _ _ h => h) (fun _ h => ⟨n, hmn, by omega, h⟩)
          (fun _ _ h => ⟨n, hmn, by omega, Full.Op.PublishesAs.publishes h⟩) (fun _ _ => trivial)))
    · rw [hs.others i hi]
      exact h1

theorem Spec.GRun.made (h : GRun cfg g who what len) {m n : Nat} (hmn : m ≤ n) (hn : n ≤ len) (i : ι) :
    (g m i).made <+: (g n i).made := (h.span hmn hn i).made

theorem Spec.GRun.replies (h : GRun cfg g who what len) {m n : Nat} (hmn : m ≤ n) (hn : n ≤ len) (i : ι) :
    (g m i).replies <+: (g n i).replies := (h.span hmn hn i).replies

theorem Spec.GRun.log (h : GRun cfg g who what len) {m n : Nat} (hmn : m ≤ n) (hn : n ≤ len) (i : ι) :
    (g m i).log <+: (g n i).log := (h.span hmn hn i).log

/-- What a node has published was published in an event at that node. -/
theorem Spec.GRun.publisher (h : GRun cfg g who what len) {n : Nat} (hn : n ≤ len) {i : ι} {p : Name} {q : Nat}
    (hp : (p, q) ∈ (g n i).made) : ∃ k < n, who k = i ∧ (what k).PublishesAs p q := by
  induction n with
  | zero => rw [Full.init_made (h.init i)] at hp; cases hp
  | succ n ih =>
    have hs := h.step n (by omega)
    by_cases hi : i = who n
    · subst hi
      rcases (Full.step_micro (Full.reach_inv (h.reach (by omega) _)) hs.step).newMade hp with h1 | h1
      · obtain ⟨k, hk, h2⟩ := ih (by omega) h1
        exact ⟨k, by omega, h2⟩
      · exact ⟨n, by omega, rfl, h1⟩
    · rw [hs.others i hi] at hp
      obtain ⟨k, hk, h2⟩ := ih (by omega) hp
      exact ⟨k, by omega, h2⟩

theorem Spec.GRun.published (h : GRun cfg g who what len) {m n : Nat} (hmn : m ≤ n) (hn : n ≤ len) {p : Name} {q : Nat}
    (hp : PublishedBy (g m) p q) : PublishedBy (g n) p q := by
  obtain ⟨j, hj⟩ := hp
  exact ⟨j, (h.made hmn hn j).subset hj⟩

theorem Spec.GRun.sane (h : GRun cfg g who what len) (hs : Sane cfg (g len)) {n : Nat} (hn : n ≤ len) : Sane cfg (g n) := by
  have hl : ∀ j, (g n j).replies.length ≤ (g len j).replies.length := fun j => (h.replies hn (le_refl _) j).length_le
  exact ⟨⟨fun j e he => hs.names j e ((h.made hn (le_refl _) j).subset he),
    fun j e he => hs.buffers j e ((h.replies hn (le_refl _) j).subset he),
    fun j a ha => hs.version_lt j a (lt_of_lt_of_le ha (hl j))⟩,
    fun i j a ha b hb => hs.versions i j a (lt_of_lt_of_le ha (hl i)) b (lt_of_lt_of_le hb (hl j))⟩

/-- A reply that carries published names is understood by its receiver. -/
theorem carries_decode {c c' : Cfg} (hl : c.contentCodec.Lossless) (hsame : c'.contentCodec = c.contentCodec)
    {K : Name → Nat → Prop} (hK : ∀ p q, K p q → p.Valid) {buf : Bytes}
    (hraw : ∀ raw, c.contentCodec.decompress buf = some raw → raw.length < 2 ^ 64)
    (h : Full.Carries c (fun n => ∃ p q, K p q ∧ q < U64 ∧ n = Name.appendNumber p q) buf) :
    ∃ content, content ≠ [] ∧ Encodable content ∧ c.contentCodec.compress (encodeNames content) = some buf ∧
      Full.decodeReply c' buf = some content ∧ ∀ n ∈ content, ∃ p q, K p q ∧ q < U64 ∧ n = Name.appendNumber p q := by
  obtain ⟨content, h1, h2, h3⟩ := h
  have henc : Encodable content := by
    refine ⟨fun n hn => ?_, ?_⟩
    · obtain ⟨p, q, h4, _, rfl⟩ := h2 n hn
      exact appendNumber_valid (hK p q h4) q
    · obtain ⟨y, e1, e2⟩ := hl (encodeNames content)
      rw [h3, Option.some.injEq] at e1
      subst e1
      exact hraw _ e2
  exact ⟨content, h1, henc, h3, decodeReply_encode (cfg := c') (hsame ▸ hl) (hsame ▸ h3) henc, h2⟩

theorem Spec.GRun.sourced (hg : IsGroup cfg) (h : GRun cfg g who what len) (hs : Sane cfg (g len)) {n : Nat} (hn : n ≤ len)
    (i : ι) : Sourced (PublishedBy (g n)) (cfg i) (g n i).view := by
  induction n generalizing i with
  | zero =>
    have h1 : Micros (Full.rules (cfg i) Full.knownP (fun _ => False) (fun _ _ => False) (fun _ => False))
        ⟨Base.new (cfg i), SegPub.empty, [], [], [], 0⟩ (g 0 i).view :=
      Full.sendSyncInterest_micro (cfg := cfg i)
        (ρ := Full.rules (cfg i) Full.knownP (fun _ => False) (fun _ _ => False) (fun _ => False))
        (fun b n hn => ⟨hn, rfl⟩) (h.init i)
    refine h1.sourced (Base.inv_new _) (fun p q hp => ⟨i, hp⟩) (fun us hf => hf.elim)
      ⟨⟨?_, ?_⟩, by simp, by simp⟩
    · intro p q hp; simp [Base.new] at hp
    · intro p old new m hm; simp [Base.new] at hm
  | succ n ih =>
    have hst := h.step n (by omega)
    have up : ∀ p q, PublishedBy (g n) p q → PublishedBy (g (n + 1)) p q := fun p q => h.published (by omega) hn
    by_cases hi : i = who n
    · subst hi
      have hm := Full.step_micro (Full.reach_inv (h.reach (n := n) (by omega) _)) hst.step
      refine hm.sourced (Full.reach_inv (h.reach (n := n) (by omega) _)) (fun p q hp => ⟨_, hp⟩) ?_ ((ih (by omega) _).mono up)
      rintro us ⟨buf, acts, hop, ns, hdec, hann⟩ u hu
      obtain ⟨m, lt, segs, h1, h2⟩ := hst.honest buf acts hop
      have hsn := h.sane hs (n := n) (by omega)
      obtain ⟨j, k, e, h3, _, rfl⟩ := fetched_reply hg hsn (fun i => h.reach (by omega) i) h1 h2
      have he := List.mem_of_getElem? h3
      obtain ⟨content, _, _, _, h4, h5⟩ := carries_decode (c' := cfg (who n)) (hg.wf j).content_lossless
        (hg.same j (who n)).contentCodec (fun p q ⟨j', hj'⟩ => hsn.names j' _ hj') (hsn.buffers j e he).2
        ((ih (by omega) j).replies e he)
      rw [hdec, Option.some.injEq] at h4
      subst h4
      obtain ⟨x, hx, hax⟩ := hann u hu
      obtain ⟨p, q, h6, h7, rfl⟩ := h5 x hx
      rw [announced_appendNumber p q h7, Option.some.injEq, Prod.mk.injEq] at hax
      rw [← hax.1, ← hax.2]
      exact up p q h6
    · rw [hst.others i hi]
      exact (ih (by omega) i).mono up

/-! ### Exchanges -/

theorem replay_mem {h : List BaseEv} {p : Name} {q : Nat} (hq : (replay h).find p = some q) :
    ∃ old m, BaseEv.update p old q m ∈ h := by
  suffices H : ∀ k : List BaseEv, (replay k.reverse).find p = some q → ∃ old m, BaseEv.update p old q m ∈ k.reverse by
    have := H h.reverse (by simpa using hq)
    simpa using this
  clear hq
  intro k hq
  induction k with
  | nil => simp [replay] at hq
  | cons e k ih =>
    rw [List.reverse_cons] at hq ⊢
    generalize k.reverse = h at *
    have lift : (∃ old m, BaseEv.update p old q m ∈ h) → ∃ old m, BaseEv.update p old q m ∈ h ++ [e] :=
      fun ⟨o, m, hm⟩ => ⟨o, m, by simp [hm]⟩
    rw [replay_append] at hq
    cases e with
    | update p' old new m =>
      simp only [NMap.find_set] at hq
      split at hq
      · rename_i he
        subst he
        cases hq
        exact ⟨old, m, by simp⟩
      · exact lift (ih hq)
    | remove p' x =>
      simp only [NMap.find_erase] at hq
      split at hq
      · simp at hq
      · exact lift (ih hq)

/-- An earlier table is made of published numbers if the later one is. -/
theorem TableSourced.earlier {K : Name → Nat → Prop} {R : Name → Prop} {c : Cfg} {b b' : Base}
    (hb : Steps R (Base.new c) b) (h : Steps R b b') (hs : TableSourced K b') : TableSourced K b := by
  have hh : HistSourced K b.hist := fun p old new m hm => hs.hist p old new m (by obtain ⟨ext, he⟩ := h.hist; rw [he]; simp [hm])
  refine ⟨fun p q hp => ?_, hh⟩
  by_cases hq : q = 0
  · exact Or.inl hq
  · right
    have := (hb.replayed (Base.inv_new c) (replayed_new c)).find p
    rw [hp, Option.getD_some] at this
    cases hr : (replay b.hist).find p with
    | none => rw [hr] at this; exact absurd this hq
    | some x =>
      rw [hr, Option.getD_some] at this
      subst this
      obtain ⟨old, m, hm⟩ := replay_mem hr
      exact (hh p old q m hm).1

theorem collisionFree_of {e : Nat} {P : Name → Nat → Prop} (hP : NoCollisionsIn e P) {b : Base}
    (hb : TableSourced P b) : CollisionFree b.hist := by
  intro p old new m hm n n' hn hn' heq
  have near : ∀ n, IsLive m.find n → Near P n := by
    rintro n ⟨p', s, h1, h2, rfl⟩
    exact ⟨p', s, ((hb.hist p old new m hm).2 p' s h1).resolve_left h2, Or.inl rfl⟩
  exact hP.names n n' (near n hn) (near n' hn') heq

theorem noCollisions_of {e : Nat} {P : Name → Nat → Prop} (hP : NoCollisionsIn e P) {b b' : Base}
    (hb : TableSourced P b) (hb' : TableSourced P b') : NoCollisions e b.getSeqNo b'.getSeqNo := by
  have live : ∀ {b : Base}, TableSourced P b → ∀ n, IsLive b.getSeqNo n → ∃ p q, P p q ∧ n = Name.appendNumber p q := by
    rintro b hb n ⟨p', s, h1, h2, rfl⟩
    exact ⟨p', s, (hb.table p' s h1).resolve_left h2, rfl⟩
  have near : ∀ n, Compared b.getSeqNo b'.getSeqNo n → Near P n := by
    rintro n (h | h | ⟨p, x, h1, h2, rfl⟩)
    · obtain ⟨p, q, h1, h2⟩ := live hb n h; exact ⟨p, q, h1, Or.inl h2⟩
    · obtain ⟨p, q, h1, h2⟩ := live hb' n h; exact ⟨p, q, h1, Or.inl h2⟩
    · exact ⟨p, x, (hb.table p x h1).resolve_left h2, Or.inr rfl⟩
  have hashes : ∀ {b : Base}, TableSourced P b → ∀ A, IsHashList b.getSeqNo A → HashesOf P A := by
    intro b hb A hA
    refine ⟨hA.1, fun k hk => ?_⟩
    obtain ⟨n, h1, h2⟩ := (hA.2 k).mp hk
    obtain ⟨p, q, h3, rfl⟩ := live hb n h1
    exact ⟨p, q, h3, h2⟩
  exact ⟨fun n n' hn hn' => hP.names n n' (near n hn) (near n' hn'),
    fun A B hA hB => hP.checks A B (hashes hb A hA) (hashes hb' B hB),
    fun A B hA hB => hP.few A B (hashes hb A hA) (hashes hb' B hB)⟩

/-- Without removals, numbers only grow. -/
theorem Spec.GRun.covers (h : GRun cfg g who what len) (hrem : ∀ k < len, ∀ p, ¬ (what k).Removes p) {m n : Nat}
    (hmn : m ≤ n) (hn : n ≤ len) (i : ι) : Covers (g m i).base.getSeqNo (g n i).base.getSeqNo := by
  intro p x hp _
  exact (h.span hmn hn i).steps.mono_seq (p := p) (fun ⟨k, _, h2, h3⟩ => hrem k (by omega) p h3) hp

theorem covers_trans {g1 g2 g3 : Name → Option Nat} (h : Covers g1 g2) (h' : Covers g2 g3) : Covers g1 g3 := by
  intro p x hp hx
  obtain ⟨y, hy, hle⟩ := h p x hp hx
  obtain ⟨z, hz, hle'⟩ := h' p y hy (by omega)
  exact ⟨z, hz, by omega⟩

theorem covers_steps {b b' : Base} (h : Steps (fun _ => False) b b') : Covers b.getSeqNo b'.getSeqNo :=
  fun _ _ hp _ => h.mono_seq (fun h => h) hp

/-- A sync Interest a node has sent carries an earlier table of that node. -/
theorem Spec.GRun.asked (h : GRun cfg g who what len) (hrem : ∀ k < len, ∀ p, ¬ (what k).Removes p) {n : Nat} (hn : n ≤ len)
    {i : ι} {nm : Name} {lt : Nat} (hi : Out.interest nm lt ∈ (g n i).log) :
    ∃ b, Full.syncName (cfg i) b = .ok nm ∧ Steps (fun _ => False) (Base.new (cfg i)) b ∧
      Steps (fun _ => False) b (g n i).base := by
  have m1 : Micros (Full.rules (cfg i) Full.knownP (fun _ => False) (fun _ _ => True) (fun _ => True))
      ⟨Base.new (cfg i), SegPub.empty, [], [], [], 0⟩ (g 0 i).view :=
    Full.sendSyncInterest_micro (cfg := cfg i)
      (ρ := Full.rules (cfg i) Full.knownP (fun _ => False) (fun _ _ => True) (fun _ => True))
      (fun b n hn => ⟨hn, rfl⟩) (h.init i)
  have m2 := (h.span (Nat.zero_le n) hn i).mono (Full.rules_le (R' := fun _ => False) (L' := fun _ _ => True)
    (M' := fun _ => True) (fun _ _ _ h => h) (fun p ⟨k, _, h2, h3⟩ => hrem k (by omega) p h3) (fun _ _ _ => trivial)
    (fun _ _ => trivial))
  have ht := (m1.trans m2).traced
  obtain ⟨ext, h3, h4⟩ := ht.log
  simp only [Full.view, List.nil_append] at h3
  rw [h3] at hi
  rcases h4 _ hi with ⟨d, hd, _⟩ | ⟨b, hb, hnm, _⟩
  · simp [SegPub.empty] at hd
  · exact ⟨b, hnm, hb.1, hb.2⟩

/-- Node `j` receives a sync Interest with an earlier table `b` of node `i` and has no stored reply: it sends no
Data, and `b` lacks nothing if the difference can be decoded; or it sends one packet, and the fetch of `i` that
starts with it brings everything `j` knew. -/
theorem Spec.GRun.answer (hg : IsGroup cfg) (h : GRun cfg g who what len) (hs : Sane cfg (g len))
    (hrem : ∀ k < len, ∀ p, ¬ (what k).Removes p) (hnc : ∀ i, NoCollisionsIn (cfg i).expected (PublishedBy (g len)))
    {j i : ι} {a : Nat} (ha : a < len) {int : Interest} (hw : who a = j) (hop : what a = .recvInterest int) {b : Base}
    (hb1 : Full.syncName (cfg i) b = .ok int.name) (hb2 : Steps (fun _ => False) (Base.new (cfg i)) b)
    (hb3 : Steps (fun _ => False) b (g a i).base) (hst : (g a j).pub.replyFromStore int.name = none) :
    ((∀ d, Out.data d ∉ newOutput (g a j) (g (a + 1) j)) ∧
      ∀ df, Table.diff (cfg j).fuel (g a j).base.iblt b.iblt = .ok df → df.canDecode = true →
        Covers (g a j).base.getSeqNo b.getSeqNo) ∨
    ∃ d, (∀ d', Out.data d' ∈ newOutput (g a j) (g (a + 1) j) ↔ d' = d) ∧
      ∀ t, a < t → t < len → Completes g who what i d t → Covers (g a j).base.getSeqNo (g (t + 1) i).base.getSeqNo := by
  have up : ∀ n ≤ len, ∀ p q, PublishedBy (g n) p q → PublishedBy (g len) p q := fun n hn p q => h.published hn (le_refl _)
  rw [← syncName_congr (hg.same i j)] at hb1
  rw [← baseNew_congr (hg.same i j)] at hb2
  have hbT : Steps (fun _ => True) (Base.new (cfg j)) b := hb2.mono (fun _ h => h.elim)
  have hgs := h.step a ha
  have hstep : Full.step (cfg j) (g a j) (.recvInterest int) = .ok (g (a + 1) j) := by
    rw [← hw, ← hop]; exact hgs.step
  have hsj := ((h.sourced hg hs (n := a) (by omega) j).base).mono (up a (by omega))
  have hsi := ((h.sourced hg hs (n := a) (by omega) i).base).mono (up a (by omega))
  have hsb := TableSourced.earlier hb2 hb3 hsi
  obtain ⟨ext, hext, hans⟩ := Full.answer (hg.wf j) (hg.expected j) (h.reach (by omega) j) hbT (collisionFree_of (hnc j) hsj)
        (collisionFree_of (hnc j) hsb) (noCollisions_of (hnc j) hsj hsb) hb1 hst hstep
  have out : newOutput (g a j) (g (a + 1) j) = ext := by
    unfold newOutput
    rw [hext, List.drop_left]
  rw [out]
  rcases hans with h1 | ⟨content, buf, fr, d', hne, hlive, hbuf, hrep, hd0, h6, hmiss⟩
  · exact Or.inl h1
  · refine Or.inr ⟨d', h6, fun t' hat ht hcomp => ?_⟩
    obtain ⟨hw, ⟨f, hf, hfa⟩, nm, lt, segs, buf', acts, hsent, hfet, hseg0, hop⟩ := hcomp
    have hsn := h.sane hs (n := t') (by omega)
    obtain ⟨j', k, e, hk, hsegs, hbe⟩ := fetched_reply hg hsn (fun i => h.reach (by omega) i) hsent hfet
    -- the fetched reply is the one published in event a
    have hold : (g t' j).replies[(g a j).replies.length]? = some (int.name, buf, fr) := by
      obtain ⟨tl, htl⟩ := h.replies (m := a + 1) (n := t') (by omega) (by omega) j
      rw [← htl, hrep, List.append_assoc, List.getElem?_append_right (le_refl _)]
      simp
    have hee : e = (int.name, buf, fr) := by
      rw [hsegs] at hseg0
      have n1 := (segmentData_spec _ _ _).name 0 d' hseg0
      have n2 := (segmentData_spec _ _ _).name 0 d' hd0
      rw [n1] at n2
      have n3 := List.append_inj_left' n2 rfl
      unfold Name.appendVersion at n3
      have n4 := List.append_inj_right' n3 rfl
      simp only [List.cons.injEq, Tlv.mk.injEq, true_and, and_true] at n4
      have l1 := (List.getElem?_eq_some_iff.mp hk).1
      have l2 := (List.getElem?_eq_some_iff.mp hold).1
      have n5 := nniBytes_inj (hsn.version_lt j' k l1) (hsn.version_lt j _ l2) n4
      obtain ⟨rfl, rfl⟩ := hsn.versions j' j k l1 _ l2 n5
      rw [hold, Option.some.injEq] at hk
      exact hk.symm
    have hbb : buf' = buf := by rw [hbe, hee]
    subst hbb
    have hsj := (h.sourced hg hs (n := a) (by omega) j).base
    have henc : Encodable content := by
      refine ⟨fun n hn => ?_, ?_⟩
      · obtain ⟨p, x, h1, h2, rfl⟩ := hlive n hn
        obtain ⟨j2, hj2⟩ := (hsj.table p x h1).resolve_left h2
        exact appendNumber_valid ((h.sane hs (n := a) (by omega)).names j2 _ hj2) x
      · obtain ⟨y, e1, e2⟩ := (hg.wf j).content_lossless (encodeNames content)
        rw [hbuf, Option.some.injEq] at e1
        subst e1
        exact (hsn.buffers j _ (List.mem_of_getElem? hold)).2 _ e2
    have hgs := h.step t' (by omega)
    have hstep : Full.step (cfg i) (g t' i) (.complete buf' acts) = .ok (g (t' + 1) i) := by
      rw [← hw, ← hop]; exact hgs.step
    refine Full.learn (cfg := cfg i) (hg.wf i).content_lossless (Full.reach_inv (h.reach (by omega) i))
      ((hg.same j i).contentCodec ▸ hbuf) henc (fun p x hp => (Full.reach_inv (h.reach (by omega) j)).lt _ _ hp) hmiss
      (covers_trans (covers_steps hb3) (h.covers hrem (by omega) (by omega) i)) hf hfa ?_ hstep
    intro c hc p hr
    have := hrem t' (by omega) p
    rw [hop] at this
    exact this ⟨c, hc, hr⟩

theorem Spec.GRun.exchange (hg : IsGroup cfg) (h : GRun cfg g who what len) (hs : Sane cfg (g len))
    (hrem : ∀ k < len, ∀ p, ¬ (what k).Removes p) (hnc : ∀ i, NoCollisionsIn (cfg i).expected (PublishedBy (g len)))
    {j i : ι} {a t : Nat} (ht : t ≤ len) (hx : Exchange NotStored cfg g who what j i a t) :
    a < t ∧ Covers (g a j).base.getSeqNo (g t i).base.getSeqNo := by
  cases hx with
  | quiet int hask hst hno hdec =>
    refine ⟨by omega, ?_⟩
    obtain ⟨hw, hop, lt, hsent⟩ := hask
    obtain ⟨b, hb1, hb2, hb3⟩ := h.asked hrem (by omega) hsent
    have hbT : Steps (fun _ => True) (Base.new (cfg i)) b := hb2.mono (fun _ h => h.elim)
    have hcov : Covers (g a j).base.getSeqNo b.getSeqNo := by
      rcases h.answer hg hs hrem hnc (by omega) hw hop hb1 hb2 hb3 hst with ⟨_, h2⟩ | ⟨d, h6, _⟩
      · obtain ⟨c, tb, df, e1, e2, e3, e4⟩ := hdec
        rw [← syncName_congr (hg.same i j)] at hb1
        rw [← baseNew_congr (hg.same i j)] at hbT
        obtain ⟨c', e5, e6, _⟩ := honest_name (hbT.ranged (hg.expected j) (Base.ranged_new _)) (hg.wf j).iblt_lossless
          (hbT.inv (Base.inv_new _)).ownLt
        rw [hb1, Res.ok.injEq] at e5
        rw [e5, getFromEnd_two, Res.ok.injEq] at e1
        subst e1
        rw [e6, Res.ok.injEq] at e2
        subst e2
        exact h2 df e3 e4
      · exact absurd ((h6 d).mpr rfl) (hno d)
    exact covers_trans hcov (covers_trans (covers_steps hb3) (h.covers hrem (by omega) ht i))
  | answered int d t' hask hst hd hat hcomp =>
    refine ⟨by omega, ?_⟩
    obtain ⟨hw, hop, lt, hsent⟩ := hask
    obtain ⟨b, hb1, hb2, hb3⟩ := h.asked hrem (by omega) hsent
    rcases h.answer hg hs hrem hnc (by omega) hw hop hb1 hb2 hb3 hst with ⟨h1, _⟩ | ⟨d', h6, h7⟩
    · exact absurd hd (h1 d)
    · rw [(h6 d).mp hd] at hcomp
      exact h7 t' hat (by omega) hcomp

theorem Spec.GRun.path (hg : IsGroup cfg) (h : GRun cfg g who what len) (hs : Sane cfg (g len))
    (hrem : ∀ k < len, ∀ p, ¬ (what k).Removes p) (hnc : ∀ i, NoCollisionsIn (cfg i).expected (PublishedBy (g len)))
    {j i : ι} {t u : Nat} (hp : Path NotStored cfg g who what j t i u) (hu : u ≤ len) :
    t ≤ u ∧ Covers (g t j).base.getSeqNo (g u i).base.getSeqNo := by
  induction hp with
  | same u htu => exact ⟨htu, h.covers hrem htu hu _⟩
  | next k i a b u _ hx hbu ih =>
    obtain ⟨h1, h2⟩ := h.exchange hg hs hrem hnc (by omega) hx
    obtain ⟨h3, h4⟩ := ih (by omega)
    exact ⟨by omega, covers_trans h4 (covers_trans h2 (h.covers hrem hbu hu i))⟩

end

/-- Without removals, a node never falls behind what it published itself. -/
theorem Micro.ownMade {ρ : Rules} {v v' : View} (h : Micro ρ v v') (hrem : ∀ p, ¬ ρ.remove p)
    (hm : ∀ e ∈ v.made, ∃ x, v.base.prefixes.find e.1 = some x ∧ e.2 ≤ x) :
    ∀ e ∈ v'.made, ∃ x, v'.base.prefixes.find e.1 = some x ∧ e.2 ≤ x := by
  have keep : ∀ e ∈ v.made, ∃ x, v'.base.prefixes.find e.1 = some x ∧ e.2 ≤ x := by
    intro e he
    obtain ⟨x, h1, h2⟩ := hm e he
    obtain ⟨y, h3, h4⟩ := h.steps.mono_seq (hrem _) h1
    exact ⟨y, h3, by omega⟩
  cases h with
  | publish p q b' hp hq hreg h =>
    intro e he
    rcases List.mem_append.mp he with he | he
    · exact keep e he
    · rw [List.mem_singleton.mp he]
      obtain ⟨x, hx⟩ := Option.isSome_iff_exists.mp hreg
      exact ⟨max x q, by simp only [find_updateSeqNo h, if_pos, hx, Option.map_some], by omega⟩
  | _ => exact keep

theorem Micros.ownMade {ρ : Rules} {v v' : View} (h : Micros ρ v v') (hrem : ∀ p, ¬ ρ.remove p)
    (hm : ∀ e ∈ v.made, ∃ x, v.base.prefixes.find e.1 = some x ∧ e.2 ≤ x) :
    ∀ e ∈ v'.made, ∃ x, v'.base.prefixes.find e.1 = some x ∧ e.2 ≤ x := by
  induction h with
  | refl => exact hm
  | tail _ h ih => exact h.ownMade hrem ih

end PSync
