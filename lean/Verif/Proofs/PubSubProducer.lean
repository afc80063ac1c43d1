import Verif.Props.PartialSync
/-!
What a PartialProducer keeps parked and what it replies, compared with any of its tables.
-/
namespace PSync
open Spec

/-- Tables that can be compared with each other. -/
structure Comparable (e : Nat) (G : Base → Prop) : Prop where
  inv : ∀ b, G b → b.Inv
  exact : ∀ b, G b → b.Exact e
  apart : ∀ b b', G b → G b' → NoCollisions e b.getSeqNo b'.getSeqNo

/-- The same IBF means the same publications. -/
theorem Comparable.same {e : Nat} {G : Base → Prop} (h : Comparable e G) (he : 0 < e) {b b' : Base} (hb : G b) (hb' : G b')
    (ht : b.iblt = b'.iblt) {n : Name} (hn : IsLive b.getSeqNo n) : IsLive b'.getSeqNo n := by
  have := Base.diff_live (fuel := 0 + 1) he (h.inv _ hb) (h.inv _ hb') (h.exact _ hb) (h.exact _ hb') (h.apart _ _ hb hb')
    (d := ⟨true, [], []⟩) (by rw [ht]; exact diff_self 0 _) rfl
  by_contra hx
  have := (this.1 n hn).mpr hx
  simp at this

/-- `content` names every publication of `b` that passes the filter and that is missing in a table with the IBF
`t`. -/
def Covered (G : Base → Prop) (b : Base) (bf : Bloom) (t : Table) (content : List Name) : Prop :=
  ∀ b0, G b0 → b0.iblt = t → ∀ p x, b.getSeqNo p = some x → x ≠ 0 → ¬ IsLive b0.getSeqNo (Name.appendNumber p x) →
    bf.contains p = .ok true → Name.appendNumber p x ∈ content

theorem collect_covered {e fuel : Nat} {G : Base → Prop} (h : Comparable e G) (he : 0 < e) {b : Base} (hb : G b) {bf : Bloom}
    {t : Table} {diff : IBLTDiff} (hd : Table.diff fuel b.iblt t = .ok diff) (hc : diff.canDecode = true)
    {content : List Name} (hcol : Part.collect b bf diff.positive [] = .ok content) : Covered G b bf t content := by
  rintro b0 hb0 rfl p x hp hx hl hbf
  have hd := Base.diff_live he (h.inv _ hb) (h.inv _ hb0) (h.exact _ hb) (h.exact _ hb0) (h.apart _ _ hb hb0) hd hc
  refine (Part.collect_spec _ _ _ hcol _).mpr (Or.inr ⟨_, (hd.1 _ ⟨p, x, hp, hx, rfl⟩).mpr hl, ?_, ?_⟩)
  · exact BiMap.findLeft_of_mem (h.inv _ hb).nodupL ((h.exact _ hb).all p x hp hx)
  · rw [Full.dropLast_appendNumber]; exact hbf

namespace Part

/-- Parked Interests lack nothing that passes their filter. -/
def ParkedIdle (G : Base → Prop) (s : Part) : Prop :=
  ∀ k e, s.pending.find k = some e → Covered G s.base e.bf e.iblt []

theorem ParkedIdle.shrink {G : Base → Prop} {s s' : Part} (h : ParkedIdle G s)
    (hp : ∀ k e, s'.pending.find k = some e → ∃ e', s.pending.find k = some e' ∧ e'.bf = e.bf ∧ e'.iblt = e.iblt)
    (hb : ∀ p x, s'.base.getSeqNo p = some x → x ≠ 0 → s.base.getSeqNo p = some x) : ParkedIdle G s' := by
  intro k e hk b0 hb0 ht p x hx hx0
  obtain ⟨e', h1, h2, h3⟩ := hp k e hk
  rw [← h2]
  exact h k e' h1 b0 hb0 (by rw [ht, h3]) p x (hb p x hx hx0) hx0

theorem served_kept {cfg : Cfg} {t : Table} {p : Name} {x : Nat} {es kept : List (Name × PPending)} {ds : List Data}
    (h : Served cfg t p x es ds kept) : ∀ a ∈ kept, a ∈ es ∧ a.2.bf.contains p = .ok false := by
  induction h with
  | nil => simp
  | undecodable n e diff _ _ _ ih => exact fun a ha => ⟨List.mem_cons_of_mem _ (ih a ha).1, (ih a ha).2⟩
  | subscribed n e diff packets _ _ hb hr _ ih => exact fun a ha => ⟨List.mem_cons_of_mem _ (ih a ha).1, (ih a ha).2⟩
  | behind n e diff packets _ _ _ _ hr _ ih => exact fun a ha => ⟨List.mem_cons_of_mem _ (ih a ha).1, (ih a ha).2⟩
  | keep n e diff _ _ hb _ _ ih =>
    intro a ha
    rcases List.mem_cons.mp ha with rfl | ha
    · exact ⟨List.mem_cons_self, hb⟩
    · exact ⟨List.mem_cons_of_mem _ (ih a ha).1, (ih a ha).2⟩

/-- A publication changes only the number of its prefix. -/
theorem publishName_others {cfg : Cfg} {s s' : Part} {p : Name} {seq : Option Nat} (h : publishName cfg s p seq = .ok s')
    (q : Name) (hq : q ≠ p) : s'.base.getSeqNo q = s.base.getSeqNo q := by
  rcases publishName_ok h with ⟨_, rfl⟩ | ⟨cur, b, h1, h2, h3, h4⟩
  · rfl
  · rw [h4]
    have := Base.find_updateSeqNo h2 q
    rw [if_neg (fun e => hq e.symm)] at this
    exact this

theorem step_idle {cfg : Cfg} {G : Base → Prop} (hG : Comparable cfg.expected G) (he : 0 < cfg.expected) {s s' : Part}
    (hr : Reach cfg s) (hb : G s.base) {op : Op} (hi : ParkedIdle G s) (h : step cfg s op = .ok s') : ParkedIdle G s' := by
  have hpk := reach_parked hr
  cases op with
  | addUserNode p =>
    simp only [step, Res.ok.injEq] at h
    subst h
    refine hi.shrink (fun k e hk => ⟨e, hk, rfl, rfl⟩) (fun q x hq hx => ?_)
    simp only [Base.getSeqNo, Base.find_addUserNode] at hq
    split at hq
    · rename_i h1; subst h1
      cases h2 : s.base.prefixes.find p with
      | none => rw [h2] at hq; simp at hq; exact absurd hq.symm hx
      | some y => rw [h2] at hq; simp at hq; subst hq; exact h2
    · exact hq
  | removeUserNode p =>
    simp only [step, Res.bind_eq_ok, Res.ok.injEq] at h
    obtain ⟨b, h1, rfl⟩ := h
    refine hi.shrink (fun k e hk => ⟨e, hk, rfl, rfl⟩) (fun q x hq hx => ?_)
    obtain ⟨h2, _, _⟩ := Base.removeUserNode_ok h1
    simp only [Base.getSeqNo, h2, NMap.find_erase] at hq
    split at hq
    · simp at hq
    · exact hq
  | publishName p seq =>
    cases hreg : s.base.getSeqNo p with
    | none =>
      simp only [step] at h
      rcases publishName_ok h with ⟨_, rfl⟩ | ⟨cur, b, h1, _⟩
      · exact hi
      · rw [Base.getSeqNo, h1] at hreg; cases hreg
    | some x0 =>
      obtain ⟨x, ds, h1, h2, h3⟩ := c42_publish_serves cfg s s' hr p seq (by rw [hreg]; rfl) h
      intro k e hk b0 hb0 ht q y hq hy hl hbf
      obtain ⟨h4, h5⟩ := served_kept h2 (k, e) (NMap.mem_of_find hk)
      by_cases hqp : q = p
      · subst hqp
        rw [h5] at hbf; cases hbf
      · rw [publishName_others (show publishName cfg s p seq = .ok s' from h) q hqp] at hq
        exact hi k e (NMap.find_of_mem hpk.sorted h4) b0 hb0 ht q y hq hy hl hbf
  | recvInterest i =>
    simp only [step] at h
    split at h
    · have e1 := onHelloInterest_pending h
      have e2 := onHelloInterest_base h
      exact hi.shrink (fun k e hk => ⟨e, e1 ▸ hk, rfl, rfl⟩) (fun q x hq _ => by rw [e2] at hq; exact hq)
    · split at h
      · rename_i hp
        rcases onSyncInterest_cases' (List.isPrefixOf_iff_prefix.mp hp) h with ⟨d, hd, rfl⟩ | ⟨_, rfl | ⟨key, bf, iblt, hf, hk, h1⟩⟩
        · exact hi
        · exact hi
        · obtain ⟨diff, hd, ⟨_, d, h2, rfl⟩ | ⟨hc, content, hcol, ⟨_, c, r, h2, h3, rfl⟩ | ⟨_, hcon, rfl⟩⟩⟩ := onSyncParsed_ok h1
          · exact hi
          · exact hi
          · intro k e hk'
            simp only [NMap.find_set] at hk'
            split at hk'
            · simp only [Option.some.injEq] at hk'
              subst hk'
              rw [hpk.renewed hf]
              rw [← hcon]
              exact collect_covered hG he hb hd hc hcol
            · exact hi k e hk'
      · cases h; exact hi
  | tick t =>
    simp only [step, Res.ok.injEq] at h
    subst h
    split
    · exact hi
    · exact hi
  | expire n =>
    simp only [step] at h
    split at h
    · rename_i e he
      split at h
      · split at h
        · cases h
          refine hi.shrink (fun k e' hk => ?_) (fun q x hq _ => hq)
          simp only [NMap.find_erase, NMap.find_set] at hk
          split at hk
          · cases hk
          · split at hk
            · rename_i heq
              cases hk
              exact ⟨e, heq ▸ he, rfl, rfl⟩
            · exact ⟨e', hk, rfl, rfl⟩
        · cases h; exact hi
      · cases h; exact hi
    · cases h; exact hi
  | fireStore => simp only [step, Res.ok.injEq] at h; subst h; exact hi

/-- A reply made with the table `b`. -/
inductive ReplyMade (cfg : Cfg) (G : Base → Prop) (b : Base) : Name → Bytes → Prop
  | hello (c : Component) : b.iblt.toComponent cfg.ibltCodec = .ok c →
      ReplyMade cfg G b (cfg.syncPrefix ++ [HELLO, c]) (encodeNames (helloContent b))
  | sync (c : Component) (key : Name) (bf : Bloom) (t : Table) (content : List Name) :
      b.iblt.toComponent cfg.ibltCodec = .ok c → SyncFields cfg key bf t →
      (∀ n ∈ content, ∃ p x, b.getSeqNo p = some x ∧ n = Name.appendNumber p x) → Covered G b bf t content →
      ReplyMade cfg G b (key ++ [c]) (encodeNames content)

theorem step_replies {cfg : Cfg} {G : Base → Prop} (hG : Comparable cfg.expected G) (he : 0 < cfg.expected) {s s' : Part}
    (hr : Reach cfg s) {op : Op} (hi : ParkedIdle G s) (h : step cfg s op = .ok s') (hb' : G s'.base)
    {e : Name × Bytes × Nat} (hm : e ∈ s'.replies) : e ∈ s.replies ∨ ReplyMade cfg G s'.base e.1 e.2.1 := by
  have hpk := reach_parked hr
  rcases (step_micro hpk h).newReplies hm with h1 | ⟨b, m, rfl, h2⟩
  · exact .inl h1
  right
  obtain ⟨nm, buf, fr⟩ := e
  simp only at h2 ⊢
  have hinv := hG.inv _ hb'
  cases h2 with
  | hello c hc => exact .hello c hc
  | asked n key bf iblt diff content c _ hf _ hd hc hcol hc' =>
    refine .sync c key bf iblt content hc' hf (fun n hn => ?_) (collect_covered hG he hb' hd hc hcol)
    rcases (Part.collect_spec _ _ _ hcol n).mp hn with h | ⟨j, _, h8, h9⟩
    · simp at h
    · obtain ⟨_, p, x, hp, _, rfl⟩ := hinv.bm _ _ (BiMap.findLeft_some h8)
      exact ⟨p, x, hp, rfl⟩
  | parked p x key bf iblt diff sub c hw hpark hp hd hc hsub hc' =>
    obtain ⟨seq, rfl⟩ := hw
    obtain ⟨e, hk, rfl, rfl⟩ := hpark
    refine .sync c key e.bf e.iblt _ hc' (hpk.fields _ _ hk) (fun n hn => ?_) ?_
    · cases sub with
      | false => simp at hn
      | true =>
        simp only [if_true, List.mem_singleton] at hn
        exact ⟨p, x, hp, hn⟩
    · intro b0 hb0 ht q y hq hy hl hbf
      by_cases hqp : q = p
      · subst hqp
        rw [hsub, Res.ok.injEq] at hbf
        subst hbf
        rw [hp, Option.some.injEq] at hq
        subst hq
        simp
      · rw [publishName_others (show publishName cfg s p seq = .ok s' from h) q hqp] at hq
        exact absurd (hi key e hk b0 hb0 ht q y hq hy hl hbf) (by simp)

/-- Prefixes are registered by addUserNode only. -/
theorem step_registers {cfg : Cfg} {s s' : Part} {op : Op} (h : step cfg s op = .ok s') {p : Name} {x : Nat}
    (hp : s'.base.getSeqNo p = some x) : (∃ y, s.base.getSeqNo p = some y) ∨ op = .addUserNode p := by
  cases op with
  | addUserNode q =>
    simp only [step, Res.ok.injEq] at h
    subst h
    simp only [Base.getSeqNo, Base.find_addUserNode] at hp
    split at hp
    · rename_i h1; subst h1; exact .inr rfl
    · exact .inl ⟨x, hp⟩
  | removeUserNode q =>
    simp only [step, Res.bind_eq_ok, Res.ok.injEq] at h
    obtain ⟨b, h1, rfl⟩ := h
    obtain ⟨h2, _, _⟩ := Base.removeUserNode_ok h1
    simp only [Base.getSeqNo, h2, NMap.find_erase] at hp
    split at hp
    · simp at hp
    · exact .inl ⟨x, hp⟩
  | publishName q seq =>
    by_cases hq : p = q
    · subst hq
      rcases publishName_ok (show publishName cfg s p seq = .ok s' from h) with ⟨_, rfl⟩ | ⟨cur, b, h1, _⟩
      · exact .inl ⟨x, hp⟩
      · exact .inl ⟨cur, h1⟩
    · rw [publishName_others (show publishName cfg s q seq = .ok s' from h) p hq] at hp
      exact .inl ⟨x, hp⟩
  | recvInterest i =>
    simp only [step] at h
    split at h
    · rw [onHelloInterest_base h] at hp; exact .inl ⟨x, hp⟩
    · split at h
      · rw [onSyncInterest_base h] at hp; exact .inl ⟨x, hp⟩
      · cases h; exact .inl ⟨x, hp⟩
  | tick t =>
    simp only [step, Res.ok.injEq] at h
    subst h
    split at hp <;> exact .inl ⟨x, hp⟩
  | expire n =>
    simp only [step] at h
    split at h
    · split at h
      · split at h <;> (cases h; exact .inl ⟨x, hp⟩)
      · cases h; exact .inl ⟨x, hp⟩
    · cases h; exact .inl ⟨x, hp⟩
  | fireStore => simp only [step, Res.ok.injEq] at h; subst h; exact .inl ⟨x, hp⟩

theorem Reach.next {cfg : Cfg} {s s' : Part} {op : Op} (h : Reach cfg s) (hs : step cfg s op = .ok s') : Reach cfg s' := by
  obtain ⟨ops, h2⟩ := h
  refine ⟨ops ++ [op], ?_⟩
  unfold run at h2 ⊢
  rw [foldRes_append, h2]
  simp [Res.bind, foldRes, hs]

end Part

/-- Without merges, the numbers in a table are those published. -/
theorem Micros.tableSourced {ρ : Rules} (hρ : ∀ us, ¬ ρ.merge us) {v v' : View} (h : Micros ρ v v')
    (hs : TableSourced (fun p q => (p, q) ∈ v.made) v.base) : TableSourced (fun p q => (p, q) ∈ v'.made) v'.base := by
  induction h with
  | refl => exact hs
  | tail h1 h2 ih =>
    have ih := ih.mono (fun p q hm => h2.made.subset hm)
    cases h2 with
    | add p => exact ih.add p
    | remove p b' hp h => exact ih.remove h
    | publish p q b' hp hq hreg h => exact ih.update (by simp) h
    | merge us b' hm hu h => exact absurd hm (hρ us)
    | _ => exact ih

theorem Part.reach_sourced {cfg : Cfg} {s : Part} (h : Part.Reach cfg s) : TableSourced (fun p q => (p, q) ∈ s.made) s.base := by
  have := (Part.reach_micro h).tableSourced (fun us hm => hm)
    ⟨fun p q hp => by simp [Base.new] at hp, fun p old new m hm => by simp [Base.new] at hm⟩
  exact this

end PSync
