import Verif.Proofs.SegPub
import Verif.Props.Sample
/-!
Properties C53–C55: `psync::SegmentPublisher`.
-/
namespace PSync
open Spec

/-- The name used in the examples. -/
def pSeg : Name := nameOf [120]

/-! ### C53 -/

/-- C53: what publish() stores and schedules for a buffer is a segmentation of it: at least one packet,
numbered from 0, contents concatenating to the buffer, all but the last holding exactly 4400 bytes
(half of 8800), the last at most that, each carrying the number of the last one. -/
theorem c53_segmentation (name : Name) (buffer : Bytes) (freshness : Nat) :
    IsSegmentation name buffer freshness (segmentData name buffer freshness) :=
  segmentData_spec name buffer freshness

/-- C53: hence there are exactly as many packets as needed. -/
theorem c53_count (name : Name) (buffer : Bytes) (freshness : Nat) :
    (segmentData name buffer freshness).length = max 1 ((buffer.length + 4399) / 4400) := by
  have h := segmentData_spec name buffer freshness
  generalize segmentData name buffer freshness = segs at h
  have key : ∀ (l : List Data), 0 < l.length → (∀ d ∈ l, d.content.length ≤ 4400) →
      (∀ i d, l[i]? = some d → i + 1 < l.length → d.content.length = 4400) →
      (∀ d ∈ l, 0 < d.content.length) →
      (l.map Data.content).flatten.length ≤ 4400 * l.length ∧
      4400 * (l.length - 1) < (l.map Data.content).flatten.length := by
    intro l
    induction l with
    | nil => intro h; simp at h
    | cons d l ih =>
      intro _ hs hf hpos
      cases l with
      | nil => simpa using ⟨hs d (by simp), hpos d (by simp)⟩
      | cons e l =>
        obtain ⟨h1, h2⟩ := ih (by simp) (fun x hx => hs x (List.mem_cons_of_mem _ hx))
          (fun i x hx hi => hf (i + 1) x (by simpa using hx) (by simpa using hi))
          (fun x hx => hpos x (List.mem_cons_of_mem _ hx))
        have h0 := hf 0 d rfl (by simp)
        rw [List.map_cons, List.flatten_cons, List.length_append, h0]
        simp only [List.length_cons] at h1 h2 ⊢
        constructor <;> omega
  by_cases hb : buffer = []
  · subst hb
    have hlen := h.nonempty
    match segs, h, hlen with
    | [d], _, _ => rfl
    | d :: e :: l, h, _ =>
      exfalso
      have h0 := h.full 0 d rfl (by simp)
      have hc := h.content
      simp only [List.map_cons, List.flatten_cons, List.append_eq_nil_iff] at hc
      rw [hc.1] at h0
      simp at h0
  · have h1 := key segs h.nonempty h.size h.full (fun d hd => List.length_pos_iff.mpr (h.used hb d hd))
    rw [h.content] at h1
    have h0 := h.nonempty
    omega

/-- Non-vacuity for C53: 5000 bytes need two packets, an empty buffer one. -/
example : ((segmentData pSeg (List.replicate 5000 1#8) 10).map (fun d => d.content.length)) = [4400, 600] := by
  decide +kernel
example : ((segmentData pSeg [] 10).map (fun d => (d.name, d.content))) = [(pSeg ++ [⟨50, [0]⟩], [])] := by
  decide +kernel

/-! ### C54 -/

/-- C54: publish() puts at most one packet on the face: the one whose number is the last component of the
Interest name if that is a segment number, number 0 otherwise; nothing if there is no such packet. -/
theorem c54_requested_segment (limit now version : Nat) (p : SegPub) (interestName dataName : Name)
    (buffer : Bytes) (freshness : Nat) (r : SegPub × List Data)
    (h : p.publish limit now version interestName dataName buffer freshness = .ok r) :
    let name := dataName.appendVersion version
    ∃ last, interestName.getLast? = some last ∧
    (∀ k, last.type = 50 → last.value = nniBytes k → k < 2 ^ 64 →
      r.2 = (segmentData name buffer freshness)[k]?.toList) ∧
    (last.type ≠ 50 → r.2 = (segmentData name buffer freshness)[0]?.toList) ∧
    (r.2 = [] ∨ ∃ d, r.2 = [d] ∧ d ∈ segmentData name buffer freshness) := by
  obtain ⟨_, _, last, seg, h1, h2, h3⟩ := publish_ok h
  have hl : interestName.getLast? = some last := by
    cases hn : interestName with
    | nil => rw [hn] at h1; simp [Name.getFromEnd] at h1
    | cons a l =>
      rw [hn] at h1
      rw [getFromEnd_one (by simp)] at h1
      cases h1
      exact List.getLast?_eq_some_getLast (by simp)
  refine ⟨last, hl, ?_, ?_, ?_⟩
  · intro k ht hv hk
    have hr : readNni last.value = some k := by rw [hv]; exact readNni_nniBytes k (by simpa using hk)
    have hs : last.isSegment = true := by
      unfold Component.isSegment
      rw [hr, ht]; rfl
    rw [if_pos hs, Component.toNumber, hr] at h2
    cases h2
    exact h3
  · intro ht
    have hs : last.isSegment = false := by
      unfold Component.isSegment
      simp only [Bool.and_eq_false_iff, decide_eq_false_iff_not]
      exact Or.inl ht
    rw [if_neg (by simp [hs])] at h2
    cases h2
    exact h3
  · rw [h3]
    cases hx : (segmentData (dataName.appendVersion version) buffer freshness)[seg]? with
    | none => exact Or.inl rfl
    | some d => exact Or.inr ⟨d, rfl, List.mem_of_getElem? hx⟩

/-- C54: publish() succeeds for every Interest with a name. -/
theorem c54_total (limit now version : Nat) (p : SegPub) (interestName dataName : Name)
    (buffer : Bytes) (freshness : Nat) (hn : interestName ≠ []) :
    ∃ r, p.publish limit now version interestName dataName buffer freshness = .ok r := publish_total hn

/-- Non-vacuity for C54: segment 1 of two is requested, then segment 2. -/
example : ((SegPub.empty.publish 10 0 1 (pSeg ++ [⟨50, [1]⟩]) pSeg (List.replicate 5000 1#8) 10).get?.map
    (fun r => r.2.map (fun d => d.content.length))) = some [600] := by decide +kernel
example : ((SegPub.empty.publish 10 0 1 (pSeg ++ [⟨50, [2]⟩]) pSeg (List.replicate 5000 1#8) 10).get?.map
    (fun r => r.2.map (fun d => d.content.length))) = some [] := by decide +kernel

/-! ### C55 -/

/-- What holds of every segment publisher. -/
structure SegInv (limit : Nat) (s : SegSys) : Prop where
  bound : s.pub.store.length ≤ limit
  nodup : s.pub.store.Nodup
  rec_ : ∀ d ∈ s.pub.store, ∃ e ∈ s.published, e.data = d ∧ (e.expiry, d.name) ∈ s.pub.timers
  due : ∀ t ∈ s.pub.timers, s.now ≤ t.1

theorem segInv_step {limit : Nat} (hl : 0 < limit) {s s' : SegSys} {op : SegOp} (hi : SegInv limit s)
    (h : s.step limit op = .ok s') : SegInv limit s' := by
  cases op with
  | publish v iname dname buf fr =>
    simp only [SegSys.step, Res.bind_eq_ok, Res.ok.injEq] at h
    obtain ⟨r, hr, rfl⟩ := h
    obtain ⟨h1, h2, _⟩ := publish_ok hr
    constructor
    · simp only [h1]; exact storeFold_length hl _ hi.bound
    · simp only [h1]
      generalize segmentData (dname.appendVersion v) buf fr = ds
      have : ∀ (ds : List Data) (st : List Data), st.Nodup → (ds.foldl (storeInsert limit) st).Nodup := by
        intro ds
        induction ds with
        | nil => intro st h; exact h
        | cons d ds ih => intro st h; exact ih _ (storeInsert_nodup h)
      exact this ds _ hi.nodup
    · intro d hd
      simp only [h1] at hd
      simp only [h2, List.mem_append, List.mem_map]
      rcases storeFold_mem _ hd with hd | hd
      · obtain ⟨e, he, hde, ht⟩ := hi.rec_ d hd
        exact ⟨e, Or.inl he, hde, Or.inl ht⟩
      · exact ⟨⟨d, s.now + fr⟩, Or.inr ⟨d, hd, rfl⟩, rfl, Or.inr ⟨d, hd, rfl⟩⟩
    · intro t ht
      simp only [h2, List.mem_append, List.mem_map] at ht
      rcases ht with ht | ⟨d, _, rfl⟩
      · exact hi.due t ht
      · simp
  | tick t =>
    simp only [SegSys.step, Res.ok.injEq] at h
    split at h
    · subst h
      constructor
      · exact (eraseFold_sublist _ _).length_le.trans hi.bound
      · exact hi.nodup.sublist (eraseFold_sublist _ _)
      · intro d hd
        simp only at hd
        rw [fire_mem] at hd
        obtain ⟨e, he, hde, ht⟩ := hi.rec_ d hd.1
        refine ⟨e, he, hde, ?_⟩
        simp only [SegPub.fire, List.mem_filter, decide_eq_true_eq]
        refine ⟨ht, ?_⟩
        intro hle
        have := hd.2 _ ht hle
        rw [List.isPrefixOf_iff_prefix.mpr (List.prefix_refl d.name)] at this
        simp at this
      · intro x hx
        simp only [SegPub.fire, List.mem_filter, decide_eq_true_eq] at hx ⊢
        omega
    · subst h; exact hi

theorem segInv_run {limit : Nat} (hl : 0 < limit) {ops : List SegOp} {s : SegSys}
    (h : SegSys.run limit SegSys.init ops = .ok s) : SegInv limit s := by
  refine foldRes_inv ops (fun s x s' _ hs hx => segInv_step hl hs hx) ?_ h
  constructor <;> simp [SegSys.init, SegPub.empty]

/-- C55: in any history of publications and time, a packet answered from the store was published before,
its lifetime is not over, its name extends the Interest name, and it is the first such name in canonical
order; the store answers whenever it holds a matching packet; it never holds more than `limit`
packets. -/
theorem c55_store_sound (limit : Nat) (hl : 0 < limit) (ops : List SegOp) (s : SegSys)
    (h : SegSys.run limit SegSys.init ops = .ok s) (n : Name) :
    (∀ d, s.pub.replyFromStore n = some d →
      (∃ e ∈ s.published, e.data = d ∧ s.now ≤ e.expiry) ∧ n <+: d.name ∧
      ∀ x ∈ s.pub.store, n <+: x.name → Name.lt x.name d.name = false) ∧
    (s.pub.replyFromStore n = none → ∀ x ∈ s.pub.store, ¬ n <+: x.name) ∧
    s.pub.store.length ≤ limit := by
  have hi := segInv_run hl h
  refine ⟨?_, ?_, hi.bound⟩
  · intro d hd
    obtain ⟨h1, h2, h3⟩ := storeFind_some hd
    obtain ⟨e, he, hde, ht⟩ := hi.rec_ d h1
    exact ⟨⟨e, he, hde, hi.due _ ht⟩, List.isPrefixOf_iff_prefix.mp h2,
      fun x hx hp => h3 x hx (List.isPrefixOf_iff_prefix.mpr hp)⟩
  · intro hn x hx hp
    have := storeFind_none.mp hn x hx
    rw [List.isPrefixOf_iff_prefix.mpr hp] at this
    simp at this

/-- C55: publishing packets that are not stored yet keeps exactly the `limit` most recent ones. -/
theorem c55_keeps_recent (limit : Nat) (hl : 0 < limit) (ops : List SegOp) (s s' : SegSys)
    (h : SegSys.run limit SegSys.init ops = .ok s) (v : Nat) (iname dname : Name) (buf : Bytes) (fr : Nat)
    (hbuf : buf.length < 2 ^ 64) (hnew : ∀ d ∈ segmentData (dname.appendVersion v) buf fr, d ∉ s.pub.store)
    (h' : s.step limit (.publish v iname dname buf fr) = .ok s') :
    let all := s.pub.store ++ segmentData (dname.appendVersion v) buf fr
    s'.pub.store = all.drop (all.length - limit) := by
  have hi := segInv_run hl h
  simp only [SegSys.step, Res.bind_eq_ok, Res.ok.injEq] at h'
  obtain ⟨r, hr, rfl⟩ := h'
  obtain ⟨h1, _⟩ := publish_ok hr
  simp only [h1]
  apply storeFold_recent hl _ hi.bound
  rw [List.nodup_append]
  refine ⟨hi.nodup, ?_, fun a ha b hb hab => hnew b hb (hab ▸ ha)⟩
  have hc := c53_count (dname.appendVersion v) buf fr
  have hsg := segmentData_spec (dname.appendVersion v) buf fr
  generalize segmentData (dname.appendVersion v) buf fr = segs at hc hsg
  rw [List.nodup_iff_getElem?_ne_getElem?]
  intro i j hij hj heq
  have hi' : i < segs.length := by omega
  have h3 := hsg.name i _ (List.getElem?_eq_getElem hi')
  have h4 := hsg.name j _ (List.getElem?_eq_getElem hj)
  rw [List.getElem?_eq_getElem hi', List.getElem?_eq_getElem hj, Option.some.injEq] at heq
  rw [heq, h4] at h3
  simp only [List.append_cancel_left_eq, List.cons.injEq, Tlv.mk.injEq, true_and, and_true] at h3
  have hlt : segs.length < 18446744073709551616 := by
    rw [hc]; simp only [Nat.reducePow] at hbuf; omega
  have := nniBytes_inj (by omega) (by omega) h3
  omega

/-- C55: time removes exactly the packets whose lifetime is over (and packets below their names). -/
theorem c55_expiry (p : SegPub) (now : Nat) (d : Data) :
    d ∈ (p.fire now).store ↔ d ∈ p.store ∧ ∀ t ∈ p.timers, t.1 ≤ now → ¬ t.2 <+: d.name := by
  rw [fire_mem]
  simp only [← List.isPrefixOf_iff_prefix, Bool.not_eq_true]

/-- Non-vacuity for C55: a store of two packets, three published, one of them expired. -/
example : ((SegSys.run 2 SegSys.init [.publish 1 pSeg pSeg [1] 10, .publish 2 pSeg pSeg [2] 30, .publish 3 pSeg pSeg [3] 10,
    .tick 20]).get?.map (fun s => (s.pub.store.map Data.content, s.published.length,
      (s.pub.replyFromStore pSeg).map Data.content))) = some ([[2]], 3, some [2]) := by decide +kernel

end PSync
