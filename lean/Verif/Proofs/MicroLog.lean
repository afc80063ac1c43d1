import Verif.Proofs.Micro
import Verif.Proofs.BaseTotal
/-!
What the log of a producer can contain: invariants over sequences of small actions.
-/
namespace PSync
open Spec

/-! Replaying the history -/

namespace Base

/-- The table and its replayed history agree up to zero entries. -/
structure Replayed (b : Base) : Prop where
  sorted : (replay b.hist).Sorted
  find : ∀ p, (b.prefixes.find p).getD 0 = ((replay b.hist).find p).getD 0
  sum : sumSeq b.prefixes = sumSeq (replay b.hist)

theorem replay_append (h : List BaseEv) (e : BaseEv) : replay (h ++ [e]) =
    (match e with
    | .update p _ new _ => (replay h).set p new
    | .remove p _ => (replay h).erase p) := by
  unfold replay
  rw [List.foldl_append]
  cases e <;> rfl

theorem replayed_new (cfg : Cfg) : Replayed (Base.new cfg) := by
  constructor <;> simp [Base.new, replay, sumSeq, NMap.Sorted]

theorem Step.replayed {R : Name → Prop} {b b' : Base} (hb : b.Inv) (h : Step R b b') (hr : b.Replayed) : b'.Replayed := by
  have hinv := h.inv hb
  cases h with
  | add p =>
    have hh := addUserNode_hist b p
    have hf := find_addUserNode b p
    refine ⟨by rw [hh]; exact hr.sorted, ?_, ?_⟩
    · intro q
      rw [hh, hf, ← hr.find q]
      split
      · rename_i h; subst h; rfl
      · rfl
    · rw [hh, ← hr.sum]
      unfold addUserNode
      cases hp : b.prefixes.find p with
      | some s => rfl
      | none =>
        have := sumSeq_set hb.sorted p 0
        rw [hp] at this
        simpa using this
  | remove p _ h =>
    obtain ⟨h1, _, h3⟩ := removeUserNode_ok h
    cases hp : b.prefixes.find p with
    | none =>
      unfold removeUserNode at h
      simp only [hp, Res.ok.injEq] at h
      subst h; exact hr
    | some s =>
      simp only [hp] at h3
      refine ⟨by rw [h3, replay_append]; exact NMap.sorted_erase hr.sorted p, ?_, ?_⟩
      · intro q
        rw [h1, h3, replay_append]
        simp only [NMap.find_erase]
        split
        · rfl
        · exact hr.find q
      · rw [h1, h3, replay_append]
        have e1 := sumSeq_erase hb.sorted p
        have e2 := sumSeq_erase hr.sorted p
        have := hr.find p
        have := hr.sum
        simp only
        omega
  | update p q _ h =>
    rcases updateSeqNo_ok h with ⟨rfl, _⟩ | ⟨s, b1, t, hp, hlt, h1, hp1, hn1, hh1, h2, rfl⟩
    · exact hr
    · refine ⟨by simp only [replay_append]; exact NMap.sorted_set hr.sorted p q, ?_, ?_⟩
      · intro r
        simp only [replay_append, NMap.find_set]
        split
        · rfl
        · exact hr.find r
      · simp only [replay_append]
        have e1 := sumSeq_set hb.sorted p q
        have e2 := sumSeq_set hr.sorted p q
        have := hr.find p
        have := hr.sum
        omega

theorem Steps.replayed {R : Name → Prop} {b b' : Base} (hb : b.Inv) (h : Steps R b b') (hr : b.Replayed) : b'.Replayed := by
  have : b'.Inv ∧ b'.Replayed := by
    induction h with
    | refl => exact ⟨hb, hr⟩
    | tail _ h ih => exact ⟨h.inv ih.1, h.replayed ih.1 ih.2⟩
  exact this.2

/-- `b` was the table at some time between `b0` and `b1`. -/
def Between (R : Name → Prop) (b0 b b1 : Base) : Prop := Steps R b0 b ∧ Steps R b b1

theorem Between.later {R : Name → Prop} {b0 b b1 b2 : Base} (h : Between R b0 b b1) (h' : Steps R b1 b2) :
    Between R b0 b b2 := ⟨h.1, h.2.trans h'⟩

theorem Between.earlier {R : Name → Prop} {b0 b b1 b2 : Base} (h' : Steps R b0 b1) (h : Between R b1 b b2) :
    Between R b0 b b2 := ⟨h'.trans h.1, h.2⟩

end Base

open Base

/-- `d` is one of the packets of a buffer that the rules allowed at some time in between. -/
def Sent (ρ : Rules) (b0 b1 : Base) (d : Data) : Prop :=
  ∃ b m name v buf fr, Between ρ.remove b0 b b1 ∧ ρ.data b m name buf ∧ d ∈ segmentData (name.appendVersion v) buf fr

/-- What may be appended to the log between `b0` and `b1` if nothing was stored before. -/
def OutOk (ρ : Rules) (b0 b1 : Base) : Out → Prop
  | .interest n lt => ∃ b, Between ρ.remove b0 b b1 ∧ ρ.interest b n lt
  | .data d => Sent ρ b0 b1 d ∨ ∃ b, Between ρ.remove b0 b b1 ∧ ρ.nack b d
  | .update us => ρ.merge us ∧ us ≠ [] ∧ ∃ b b', Between ρ.remove b0 b b1 ∧ MergeRel b us b' ∧ Between ρ.remove b0 b' b1
  | .hello _ => False

theorem Sent.later {ρ : Rules} {b0 b1 b2 : Base} {d : Data} (h : Sent ρ b0 b1 d) (h' : Steps ρ.remove b1 b2) :
    Sent ρ b0 b2 d := by
  obtain ⟨b, m, name, v, buf, fr, h1, h2⟩ := h
  exact ⟨b, m, name, v, buf, fr, h1.later h', h2⟩

theorem OutOk.later {ρ : Rules} {b0 b1 b2 : Base} {o : Out} (h : OutOk ρ b0 b1 o) (h' : Steps ρ.remove b1 b2) :
    OutOk ρ b0 b2 o := by
  cases o with
  | interest n lt => obtain ⟨b, h1, h2⟩ := h; exact ⟨b, h1.later h', h2⟩
  | data d =>
    rcases h with h | ⟨b, h1, h2⟩
    · exact Or.inl (h.later h')
    · exact Or.inr ⟨b, h1.later h', h2⟩
  | update us =>
    obtain ⟨h0, h1, b, b', h2, h3, h4⟩ := h
    exact ⟨h0, h1, b, b', h2.later h', h3, h4.later h'⟩
  | hello m => exact h

/-- The store and the log only contain what was allowed; `st` and `lg` are the initial ones. -/
structure Traced (ρ : Rules) (b0 : Base) (st : List Data) (lg : List Out) (v : View) : Prop where
  steps : Steps ρ.remove b0 v.base
  store : ∀ d ∈ v.pub.store, d ∈ st ∨ Sent ρ b0 v.base d
  log : ∃ ext, v.log = lg ++ ext ∧ ∀ o ∈ ext, (∃ d ∈ st, o = .data d) ∨ OutOk ρ b0 v.base o

theorem publish_data_mem {limit now v : Nat} {p : SegPub} {iname dname : Name} {buf : Bytes} {fr : Nat}
    {r : SegPub × List Data} (h : p.publish limit now v iname dname buf fr = .ok r) {d : Data} (hd : d ∈ r.2) :
    d ∈ segmentData (dname.appendVersion v) buf fr := by
  obtain ⟨_, _, last, seg, _, _, h3⟩ := publish_ok h
  rw [h3] at hd
  cases hx : (segmentData (dname.appendVersion v) buf fr)[seg]? with
  | none => rw [hx] at hd; simp at hd
  | some e =>
    rw [hx] at hd
    simp only [Option.toList_some, List.mem_singleton] at hd
    subst hd
    exact List.mem_of_getElem? hx

theorem Micro.traced {ρ : Rules} {b0 : Base} {st : List Data} {lg : List Out} {v v' : View} (h : Micro ρ v v')
    (ht : Traced ρ b0 st lg v) : Traced ρ b0 st lg v' := by
  have hst := h.steps
  obtain ⟨h1, h2, ext, h3, h4⟩ := ht
  have lift : ∀ o ∈ ext, (∃ d ∈ st, o = .data d) ∨ OutOk ρ b0 v'.base o :=
    fun o ho => (h4 o ho).imp id (fun h => h.later hst)
  have liftS : ∀ d ∈ v.pub.store, d ∈ st ∨ Sent ρ b0 v'.base d :=
    fun d hd => (h2 d hd).imp id (fun h => h.later hst)
  have here : Between ρ.remove b0 v.base v'.base := ⟨h1, hst⟩
  have here' : Between ρ.remove b0 v'.base v'.base := ⟨h1.trans hst, Steps.refl⟩
  have ext1 : ∀ o : Out, ((∃ d ∈ st, o = .data d) ∨ OutOk ρ b0 v'.base o) →
      ∃ ext', v.log ++ [o] = lg ++ ext' ∧ ∀ o ∈ ext', (∃ d ∈ st, o = .data d) ∨ OutOk ρ b0 v'.base o := by
    intro o ho
    refine ⟨ext ++ [o], by rw [h3, List.append_assoc], ?_⟩
    intro x hx
    rcases List.mem_append.mp hx with hx | hx
    · exact lift x hx
    · rw [List.mem_singleton.mp hx]; exact ho
  cases h with
  | add p => exact ⟨h1.trans hst, liftS, ext, h3, lift⟩
  | remove p b' hp h => exact ⟨h1.trans hst, liftS, ext, h3, lift⟩
  | publish p q b' hp hq hreg h => exact ⟨h1.trans hst, liftS, ext, h3, lift⟩
  | merge us b' hm hu h =>
    exact ⟨h1.trans hst, liftS, ext1 _ (Or.inr ⟨hm, hu, v.base, b', here, h, here'⟩)⟩
  | interest n lt h => exact ⟨h1.trans hst, liftS, ext1 _ (Or.inr ⟨v.base, here, h⟩)⟩
  | stored n d h =>
    refine ⟨h1.trans hst, liftS, ext1 _ ?_⟩
    rcases h2 d (storeFind_some h).1 with h | h
    · exact Or.inl ⟨d, h, rfl⟩
    · exact Or.inr (Or.inl (h.later hst))
  | nack d h => exact ⟨h1.trans hst, liftS, ext1 _ (Or.inr (Or.inr ⟨v.base, here, h⟩))⟩
  | data now iname dname buf fr r hd h =>
    have hs : ∀ d ∈ segmentData (dname.appendVersion (ρ.version v.replies.length)) buf fr, Sent ρ b0 v.base d :=
      fun d hd' => ⟨v.base, v.made, dname, _, buf, fr, here, hd, hd'⟩
    refine ⟨h1.trans hst, ?_, ?_⟩
    · intro d hd'
      simp only [(publish_ok h).1] at hd'
      rcases storeFold_mem _ hd' with hd' | hd'
      · exact liftS d hd'
      · exact Or.inr (hs d hd')
    · refine ⟨ext ++ r.2.map Out.data, by simp only [h3, List.append_assoc], ?_⟩
      intro x hx
      rcases List.mem_append.mp hx with hx | hx
      · exact lift x hx
      · obtain ⟨d, hd', rfl⟩ := List.mem_map.mp hx
        exact Or.inr (Or.inl (hs d (publish_data_mem h hd')))
  | fire t =>
    refine ⟨h1.trans hst, ?_, ext, h3, lift⟩
    intro d hd
    exact liftS d (fire_mem.mp hd).1
  | tick t => exact ⟨h1.trans hst, liftS, ext, h3, lift⟩

theorem Micros.traced {ρ : Rules} {v v' : View} (h : Micros ρ v v') :
    Traced ρ v.base v.pub.store v.log v' := by
  induction h with
  | refl => exact ⟨Steps.refl, fun d hd => Or.inl hd, [], by simp, by simp⟩
  | tail _ h ih => exact h.traced ih

/-! Full producers -/

namespace Full

theorem reach_micro {cfg : Cfg} {s : Full} (h : Reach cfg s) :
    ∃ ops, Micros (runRules cfg ops) ⟨Base.new cfg, SegPub.empty, [], [], [], 0⟩ s.view := by
  obtain ⟨s0, ops, h1, h2⟩ := h
  refine ⟨ops, (init_micro h1 ops).trans (run_micro ?_ h2)⟩
  rw [init_base h1]; exact Base.inv_new cfg

theorem reach_log {cfg : Cfg} {s : Full} (h : Reach cfg s) {o : Out} (ho : o ∈ s.log) :
    OutOk (rules cfg knownP (fun _ => True) (fun _ _ => True) (fun _ => True)) (Base.new cfg) s.base o := by
  obtain ⟨ops, hm⟩ := reach_micro h
  have ht := (hm.mono (ρ' := rules cfg knownP (fun _ => True) (fun _ _ => True) (fun _ => True))
    (rules_le (fun _ _ _ h => h) (fun _ _ => trivial) (fun _ _ _ => trivial) (fun _ _ => trivial))).traced
  obtain ⟨ext, h3, h4⟩ := ht.log
  simp only [view, List.nil_append] at h3
  rw [h3] at ho
  rcases h4 o ho with ⟨d, hd, _⟩ | h
  · simp [SegPub.empty] at hd
  · exact h

end Full
end PSync
