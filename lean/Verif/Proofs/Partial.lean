import Verif.Model.Partial
import Verif.Proofs.Full
/-!
Every step of a PartialProducer changes its base by a sequence of ProducerBase operations.
-/
namespace PSync
open Spec
namespace Part

theorem publish_ok {cfg : Cfg} {s s' : Part} {iname dname : Name} {buf : Bytes} {fr : Nat}
    (h : publish cfg s iname dname buf fr = .ok s') :
    ∃ r, s.pub.publish cfg.imsLimit s.now (cfg.version s.replies.length) iname dname buf fr = .ok r ∧
      s' = { s with pub := r.1, replies := s.replies ++ [(dname, buf, fr)], log := s.log ++ r.2.map Out.data } := by
  unfold publish at h
  simp only [Res.bind_eq_ok, Res.ok.injEq] at h
  obtain ⟨r, hr, rfl⟩ := h
  exact ⟨r, hr, rfl⟩

theorem publish_base {cfg : Cfg} {s s' : Part} {iname dname : Name} {buf : Bytes} {fr : Nat}
    (h : publish cfg s iname dname buf fr = .ok s') : s'.base = s.base := by
  obtain ⟨r, _, rfl⟩ := publish_ok h; rfl

/-- The outcomes of one iteration over the parked Interests. -/
theorem satisfyOne_ok {cfg : Cfg} {p : Name} {s s' : Part} {e : Name × PPending}
    (h : satisfyOne cfg p s e = .ok s') :
    ∃ diff, Table.diff cfg.fuel s.base.iblt e.2.iblt = .ok diff ∧
    ((diff.canDecode = false ∧ s' = { s with pending := s.pending.erase e.1 }) ∨
     (diff.canDecode = true ∧ ∃ sub, e.2.bf.contains p = .ok sub ∧
      ((sub = true ∧ ∃ c r, (s.base.index p).2.iblt.toComponent cfg.ibltCodec = .ok c ∧
          s.pub.publish cfg.imsLimit s.now (cfg.version s.replies.length) e.1 (e.1 ++ [c])
            (encodeNames [Name.appendNumber p (s.base.index p).1]) cfg.freshness = .ok r ∧
          s' = { s with base := (s.base.index p).2, pub := r.1,
                        replies := s.replies ++ [(e.1 ++ [c], encodeNames [Name.appendNumber p (s.base.index p).1], cfg.freshness)],
                        log := s.log ++ r.2.map Out.data, pending := s.pending.erase e.1 }) ∨
       (sub = false ∧ diff.positive.length + diff.negative.length ≥ threshold cfg ∧ ∃ c r,
          s.base.iblt.toComponent cfg.ibltCodec = .ok c ∧
          s.pub.publish cfg.imsLimit s.now (cfg.version s.replies.length) e.1 (e.1 ++ [c])
            (encodeNames []) cfg.freshness = .ok r ∧
          s' = { s with pub := r.1, replies := s.replies ++ [(e.1 ++ [c], encodeNames [], cfg.freshness)],
                        log := s.log ++ r.2.map Out.data, pending := s.pending.erase e.1 }) ∨
       (sub = false ∧ diff.positive.length + diff.negative.length < threshold cfg ∧ s' = s)))) := by
  unfold satisfyOne at h
  simp only [Res.bind_eq_ok] at h
  obtain ⟨diff, hd, h⟩ := h
  refine ⟨diff, hd, ?_⟩
  cases hc : diff.canDecode with
  | false =>
    simp only [hc, Bool.not_false, if_true, Res.ok.injEq] at h
    exact Or.inl ⟨rfl, h.symm⟩
  | true =>
    right
    simp only [hc, Bool.not_true, Bool.false_eq_true, if_false, Res.bind_eq_ok] at h
    obtain ⟨sub, hs, h⟩ := h
    refine ⟨rfl, sub, hs, ?_⟩
    cases sub with
    | true =>
      left
      refine ⟨rfl, ?_⟩
      simp only [Bool.true_or, if_true, Res.bind_eq_ok, Res.ok.injEq] at h
      obtain ⟨c, hc, s1, h1, rfl⟩ := h
      obtain ⟨r, hr, rfl⟩ := publish_ok h1
      exact ⟨c, r, hc, hr, rfl⟩
    | false =>
      right
      by_cases ht : diff.positive.length + diff.negative.length ≥ threshold cfg
      · left
        refine ⟨rfl, ht, ?_⟩
        simp only [ht, decide_true, Bool.or_true, if_true, Bool.false_eq_true, if_false, Res.bind_eq_ok,
          Res.ok.injEq] at h
        obtain ⟨c, hc, s1, h1, rfl⟩ := h
        obtain ⟨r, hr, rfl⟩ := publish_ok h1
        exact ⟨c, r, hc, hr, rfl⟩
      · right
        simp only [ht, decide_false, Bool.or_false, Bool.false_eq_true, if_false, Res.ok.injEq] at h
        exact ⟨rfl, by omega, h.symm⟩

theorem satisfyOne_steps {R : Name → Prop} {cfg : Cfg} {p : Name} {s s' : Part} {e : Name × PPending}
    (h : satisfyOne cfg p s e = .ok s') : Base.Steps R s.base s'.base := by
  obtain ⟨diff, _, ⟨_, rfl⟩ | ⟨_, sub, _, ⟨_, c, r, _, _, rfl⟩ | ⟨_, _, c, r, _, _, rfl⟩ | ⟨_, _, rfl⟩⟩⟩ := satisfyOne_ok h
  · exact Base.Steps.refl
  · exact Relation.ReflTransGen.single (Base.step_index _ _)
  · exact Base.Steps.refl
  · exact Base.Steps.refl

theorem satisfyPending_steps {R : Name → Prop} {cfg : Cfg} {p : Name} {s s' : Part}
    (h : satisfyPending cfg s p = .ok s') : Base.Steps R s.base s'.base :=
  foldRes_rel (Q := fun a b : Part => Base.Steps R a.base b.base) (fun _ => Base.Steps.refl)
    (fun _ _ _ => Base.Steps.trans) _ (fun _ _ _ _ => satisfyOne_steps) h

/-- When the published prefix is known the loop does not touch the base at all. -/
theorem satisfyPending_base {cfg : Cfg} {p : Name} {s s' : Part}
    (hp : (s.base.prefixes.find p).isSome = true) (h : satisfyPending cfg s p = .ok s') : s'.base = s.base := by
  have := foldRes_inv (P := fun a : Part => a.base = s.base) s.pending (f := satisfyOne cfg p) ?_ rfl h
  · exact this
  · intro a e a' _ ha h
    obtain ⟨diff, _, ⟨_, rfl⟩ | ⟨_, sub, _, ⟨_, c, r, _, _, rfl⟩ | ⟨_, _, c, r, _, _, rfl⟩ | ⟨_, _, rfl⟩⟩⟩ := satisfyOne_ok h
    · exact ha
    · simp only
      rw [← ha] at hp
      unfold Base.index
      cases hf : a.base.prefixes.find p with
      | none => simp [hf] at hp
      | some x => exact ha
    · exact ha
    · exact ha

theorem publishName_ok {cfg : Cfg} {s s' : Part} {p : Name} {q : Option Nat}
    (h : publishName cfg s p q = .ok s') :
    (s.base.prefixes.find p = none ∧ s' = s) ∨
    ∃ cur b, s.base.prefixes.find p = some cur ∧ s.base.updateSeqNo p (Full.newSeq q cur) = .ok b ∧
      satisfyPending cfg { s with base := b, made := s.made ++ [(p, Full.newSeq q cur)] } p = .ok s' ∧ s'.base = b := by
  unfold publishName at h
  cases hp : s.base.prefixes.find p with
  | none => simp only [hp, Res.ok.injEq] at h; exact Or.inl ⟨rfl, h.symm⟩
  | some cur =>
    simp only [hp, Res.bind_eq_ok] at h
    obtain ⟨b, h1, h2⟩ := h
    right
    refine ⟨cur, b, rfl, h1, h2, ?_⟩
    refine satisfyPending_base ?_ h2
    simp only
    rw [Base.find_updateSeqNo h1]
    simp [hp]

theorem onHelloInterest_base {cfg : Cfg} {s s' : Part} {i : Interest}
    (h : onHelloInterest cfg s i = .ok s') : s'.base = s.base := by
  unfold onHelloInterest at h
  split at h
  · cases h; rfl
  · simp only [Res.bind_eq_ok] at h
    obtain ⟨l, _, c4, _, h⟩ := h
    split at h
    · cases h; rfl
    · simp only [Res.bind_eq_ok] at h
      obtain ⟨c, _, h⟩ := h
      exact publish_base h

theorem onSyncParsed_base {cfg : Cfg} {s s' : Part} {i : Interest} {n : Name} {bf : Bloom} {ib : Table}
    (h : onSyncParsed cfg s i n bf ib = .ok s') : s'.base = s.base := by
  unfold onSyncParsed at h
  simp only [Res.bind_eq_ok] at h
  obtain ⟨d, _, h⟩ := h
  split at h
  · simp only [Res.bind_eq_ok, Res.ok.injEq] at h
    obtain ⟨d, _, rfl⟩ := h
    rfl
  · simp only [Res.bind_eq_ok] at h
    obtain ⟨cn, _, h⟩ := h
    split at h
    · simp only [Res.bind_eq_ok] at h
      obtain ⟨c, _, h⟩ := h
      exact publish_base h
    · cases h; rfl

/-- The ways through onSyncInterest. -/
theorem onSyncInterest_cases {cfg : Cfg} {s s' : Part} {i : Interest}
    (h : onSyncInterest cfg s i = .ok s') :
    (∃ d, s.pub.replyFromStore i.name = some d ∧ s' = s.emit (.data d)) ∨
    (s.pub.replyFromStore i.name = none ∧
      (s' = s ∨
       ∃ n count fpp c3 c4 bf iblt,
        (((i.name.drop (cfg.syncPrefix.length + 1)).length = 4 ∧ n = i.name) ∨
         ((i.name.drop (cfg.syncPrefix.length + 1)).length = 6 ∧ n = Name.dropLast i.name 2)) ∧
        extract n = .ok (count, fpp, c3, c4) ∧
        Bloom.ofComponent cfg.libm cfg.extraSalt count (cfg.libm.ofThousandths fpp) c3 = .ok bf ∧
        Table.initialize cfg.ibltCodec cfg.expected c4 = .ok iblt ∧
        onSyncParsed cfg s i n bf iblt = .ok s')) := by
  unfold onSyncInterest at h
  cases hr : s.pub.replyFromStore i.name with
  | some d =>
    simp only [hr, Res.ok.injEq] at h
    exact Or.inl ⟨d, rfl, h.symm⟩
  | none =>
    right
    refine ⟨rfl, ?_⟩
    simp only [hr] at h
    generalize hn : (i.name.drop (cfg.syncPrefix.length + 1)).length = len at h ⊢
    split at h
    · cases h; exact Or.inl rfl
    · rename_i hlen
      have hn' : ∃ n, (if len = 4 then i.name else Name.dropLast i.name 2) = n ∧
          ((len = 4 ∧ n = i.name) ∨ (len = 6 ∧ n = Name.dropLast i.name 2)) := by
        by_cases h4 : len = 4
        · exact ⟨i.name, by simp [h4], Or.inl ⟨h4, rfl⟩⟩
        · exact ⟨Name.dropLast i.name 2, by simp [h4], Or.inr ⟨by omega, rfl⟩⟩
      obtain ⟨n, hne, hn2⟩ := hn'
      rw [hne] at h
      cases he : extract n with
      | throw e => simp only [he, Res.ok.injEq] at h; exact Or.inl h.symm
      | ub u => simp [he] at h
      | hang => simp [he] at h
      | ok x =>
        obtain ⟨count, fpp, c3, c4⟩ := x
        simp only [he] at h
        cases hb : Bloom.ofComponent cfg.libm cfg.extraSalt count (cfg.libm.ofThousandths fpp) c3 with
        | throw e => simp only [hb, Res.throw_bind, Res.ok.injEq] at h; exact Or.inl h.symm
        | ub u => simp [hb] at h
        | hang => simp [hb] at h
        | ok bf =>
          simp only [hb, Res.ok_bind] at h
          cases ht : Table.initialize cfg.ibltCodec cfg.expected c4 with
          | throw e => simp only [ht, Res.throw_bind, Res.ok.injEq] at h; exact Or.inl h.symm
          | ub u => simp [ht] at h
          | hang => simp [ht] at h
          | ok iblt =>
            simp only [ht, Res.ok_bind] at h
            exact Or.inr ⟨n, count, fpp, c3, c4, bf, iblt, hn2, he, hb, ht, h⟩

theorem onSyncInterest_base {cfg : Cfg} {s s' : Part} {i : Interest}
    (h : onSyncInterest cfg s i = .ok s') : s'.base = s.base := by
  rcases onSyncInterest_cases h with ⟨d, _, rfl⟩ | ⟨_, rfl | ⟨n, c, f, c3, c4, bf, ib, _, _, _, _, h1⟩⟩
  · rfl
  · rfl
  · exact onSyncParsed_base h1

theorem step_steps {cfg : Cfg} {s s' : Part} {op : Op} (h : step cfg s op = .ok s') :
    Base.Steps (fun p => op.Removes p) s.base s'.base := by
  cases op with
  | addUserNode p =>
    simp only [step, Res.ok.injEq] at h
    subst h
    exact Relation.ReflTransGen.single (.add p)
  | removeUserNode p =>
    simp only [step, Res.bind_eq_ok, Res.ok.injEq] at h
    obtain ⟨b, h1, rfl⟩ := h
    exact Relation.ReflTransGen.single (.remove p rfl h1)
  | publishName p q =>
    simp only [step] at h
    rcases publishName_ok h with ⟨_, rfl⟩ | ⟨cur, b, _, h1, _, h2⟩
    · exact Base.Steps.refl
    · rw [h2]
      exact Relation.ReflTransGen.single (.update p _ (Full.newSeq_lt _ _) h1)
  | recvInterest i =>
    simp only [step] at h
    split at h
    · exact Base.Steps.of_eq (onHelloInterest_base h)
    · split at h
      · exact Base.Steps.of_eq (onSyncInterest_base h)
      · cases h; exact Base.Steps.refl
  | tick t =>
    simp only [step, Res.ok.injEq] at h
    subst h
    split <;> exact Base.Steps.refl
  | expire n =>
    simp only [step] at h
    split at h
    · split at h
      · split at h <;> (cases h; exact Base.Steps.refl)
      · cases h; exact Base.Steps.refl
    · cases h; exact Base.Steps.refl
  | fireStore =>
    simp only [step, Res.ok.injEq] at h
    subst h; exact Base.Steps.refl

theorem run_steps {cfg : Cfg} {s s' : Part} {ops : List Op} (h : run cfg s ops = .ok s') :
    Base.Steps (fun p => ∃ op ∈ ops, op.Removes p) s.base s'.base :=
  foldRes_rel (Q := fun a b : Part => Base.Steps _ a.base b.base) (fun _ => Base.Steps.refl)
    (fun _ _ _ => Base.Steps.trans) ops
    (fun _ o _ ho h => (step_steps h).mono (fun _ hp => ⟨o, ho, hp⟩)) h

theorem reach_steps {cfg : Cfg} {s : Part} (h : Reach cfg s) : Base.Steps (fun _ => True) (Base.new cfg) s.base := by
  obtain ⟨ops, h2⟩ := h
  exact (run_steps h2).mono (fun _ _ => trivial)

theorem reach_inv {cfg : Cfg} {s : Part} (h : Reach cfg s) : s.base.Inv :=
  (reach_steps h).inv (Base.inv_new cfg)

theorem reach_exact {cfg : Cfg} {s : Part} (h : Reach cfg s) (hc : CollisionFree s.base.hist) :
    s.base.Exact cfg.expected :=
  (reach_steps h).exact (Base.inv_new cfg) hc (Base.exact_new cfg)

end Part
end PSync
