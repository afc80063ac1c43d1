import Verif.Proofs.FullReply
/-!
Parked Interests of a FullProducer.
-/
namespace PSync
open Spec

theorem dataOf_append (l l' : List Out) : dataOf (l ++ l') = dataOf l ++ dataOf l' := by
  induction l with
  | nil => rfl
  | cons o l ih => cases o <;> simp only [List.cons_append, dataOf, ih]

theorem dataOf_map (ds : List Data) : dataOf (ds.map Out.data) = ds := by
  induction ds with
  | nil => rfl
  | cons d ds ih => simp only [List.map_cons, dataOf, ih]

namespace Full

theorem OwnInterest.dataOf {cfg : Cfg} {b : Base} {is : List Out} (h : OwnInterest cfg b is) : Spec.dataOf is = [] := by
  rcases h with rfl | ⟨n, _, rfl⟩ <;> rfl

/-- A reply to an Interest that does not end in a segment number puts exactly its first packet. -/
theorem Replied.first {cfg : Cfg} (hl : cfg.contentCodec.Lossless) {s s' : Full} {name : Name} {content : List Name} {fr : Nat}
    (h : Replied cfg s s' name content fr) (hne : name ≠ []) (hseg : (name.getLast hne).type ≠ 50) :
    ∃ ext d, s'.log = s.log ++ ext ∧ Spec.dataOf ext = [d] ∧ FirstOfReply cfg name content d := by
  obtain ⟨buf, r, is, h1, h2, h3, h4, h5, _⟩ := h
  have h2' := h2
  rw [← List.dropLast_append_getLast hne] at h2'
  obtain ⟨d, hd0, hd⟩ := publish_first hseg h2'
  rw [List.dropLast_append_getLast hne] at hd0
  refine ⟨r.2.map Out.data ++ is, d, by rw [h4, List.append_assoc], ?_, cfg.version s.replies.length, buf, fr, _,
    segmentData_spec _ _ _, by rw [List.head?_eq_getElem?]; exact hd0, ?_⟩
  · rw [dataOf_append, dataOf_map, h5.dataOf, hd]; rfl
  · obtain ⟨y, e1, e2⟩ := hl (encodeNames content)
    rw [h1, Option.some.injEq] at e1
    rw [e1]; exact e2

theorem mem_satisfyContent (b : Base) (pos : List U32) (u : Name) : u ∈ satisfyContent b pos u := by
  unfold satisfyContent
  simp only
  split
  · assumption
  · simp

theorem satisfyOne_replied {cfg : Cfg} {u : Name} {s s' : Full} {e : Name × FPending} (h : satisfyOne cfg u s e = .ok s') :
    s'.base = s.base ∧ s'.pending = s.pending.erase e.1 ∧
    ∃ content, u ∈ content ∧ Replied cfg s s' e.1 content cfg.freshness := by
  unfold satisfyOne at h
  simp only [Res.bind_eq_ok, Res.ok.injEq] at h
  obtain ⟨d, _, s1, h1, rfl⟩ := h
  have hc := sendSyncData_core h1
  refine ⟨hc.base, by simp only [deletePending, hc.pending],
    satisfyContent s.base d.positive u, mem_satisfyContent _ _ _, ?_⟩
  obtain ⟨buf, r, is, h2, h3, h4, h5, h6⟩ := sendSyncData_replied h1
  exact ⟨buf, r, is, h2, h3, h4, h5, h6⟩

/-- The loop over the parked Interests. -/
theorem satisfyLoop {cfg : Cfg} (hl : cfg.contentCodec.Lossless) {u : Name} (es : List (Name × FPending)) :
    ∀ {s s' : Full}, (∀ e ∈ es, ∃ hne : e.1 ≠ [], (e.1.getLast hne).type ≠ 50) → foldRes (satisfyOne cfg u) s es = .ok s' →
    s'.base = s.base ∧ (∀ k, s'.pending.find k = if k ∈ es.map Prod.fst then none else s.pending.find k) ∧
    ∃ ext, s'.log = s.log ++ ext ∧
      List.Forall₂ (fun e d => ∃ content, u ∈ content ∧ FirstOfReply cfg e.1 content d) es (dataOf ext) := by
  induction es with
  | nil =>
    intro s s' _ h
    simp only [foldRes, Res.ok.injEq] at h
    subst h
    exact ⟨rfl, fun k => by simp, [], by simp, .nil⟩
  | cons e es ih =>
    intro s s' hseg h
    simp only [foldRes, Res.bind_eq_ok] at h
    obtain ⟨s1, h1, h2⟩ := h
    obtain ⟨a1, a2, content, hu, hr⟩ := satisfyOne_replied h1
    obtain ⟨hne, hty⟩ := hseg e (by simp)
    obtain ⟨ext1, d, e1, e2, e3⟩ := hr.first hl hne hty
    obtain ⟨b1, b2, ext2, b3, b4⟩ := ih (fun x hx => hseg x (List.mem_cons_of_mem _ hx)) h2
    refine ⟨b1.trans a1, ?_, ext1 ++ ext2, by rw [b3, e1, List.append_assoc], ?_⟩
    · intro k
      rw [b2 k, a2, NMap.find_erase]
      simp only [List.map_cons, List.mem_cons]
      by_cases hk : k ∈ es.map Prod.fst
      · simp [hk]
      · by_cases hke : k = e.1
        · simp [hke]
        · have hke' : ¬ e.1 = k := fun h => hke h.symm
          simp [hk, hke, hke']
    · rw [dataOf_append, e2]
      exact .cons ⟨content, hu, e3⟩ b4

theorem nil_of_find_none {β : Type} {m : NMap β} (h : ∀ k, m.find k = none) : m = [] := by
  cases m with
  | nil => rfl
  | cons e m =>
    have := h e.1
    simp [NMap.find] at this

end Full
end PSync
