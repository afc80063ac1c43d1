import Verif.Proofs.Group
import Verif.Proofs.PartMicro
import Verif.Spec.Segments
/-!
A reply stays in the segment store until its freshness is over, unless newer packets take its place.
-/
namespace PSync
open Spec

theorem Name.lt_of_prefix {a b : Name} (h : a <+: b) (hne : a ≠ b) : Name.lt a b = true := by
  obtain ⟨t, rfl⟩ := h
  rw [Name.lt_iff]
  have ht : t ≠ [] := by rintro rfl; simp at hne
  unfold Name.key
  rw [List.map_append]
  generalize List.map _ a = x
  have hy : List.map Component.key t ≠ [] := by simpa using ht
  generalize List.map _ t = y at hy
  induction x with
  | nil =>
    cases y with
    | nil => exact absurd rfl hy
    | cons c y => exact List.nil_lt_cons _ _
  | cons c x ih => exact List.cons_lt_cons_iff.mpr (Or.inr ⟨rfl, ih⟩)

/-- How many packets a buffer takes. -/
theorem segmentData_count (name : Name) (bs : Bytes) (fr : Nat) (name' : Name) (fr' : Nat) :
    (segmentData name bs fr).length = (segmentData name' bs fr').length := by
  rw [segmentData_length, segmentData_length]

theorem segmentData_mem {name : Name} {bs : Bytes} {fr : Nat} {d : Data} (h : d ∈ segmentData name bs fr) :
    ∃ i, i < (segmentData name bs fr).length ∧ d.name = name ++ [⟨50, nniBytes i⟩] ∧ (segmentData name bs fr)[i]? = some d := by
  obtain ⟨i, hi⟩ := List.mem_iff_getElem?.mp h
  exact ⟨i, (List.getElem?_eq_some_iff.mp hi).1, (segmentData_spec name bs fr).name i d hi, hi⟩

/-- A packet of one reply whose name prefixes that of a packet of another. -/
theorem prefix_of_segments {n n' : Name} {b b' : Bytes} {f f' : Nat} {d d' : Data} (h : d ∈ segmentData n b f)
    (h' : d' ∈ segmentData n' b' f') (hp : d.name <+: d'.name) : n <+: n' := by
  obtain ⟨i, _, hd, _⟩ := segmentData_mem h
  obtain ⟨j, _, hd', _⟩ := segmentData_mem h'
  rw [hd, hd'] at hp
  obtain ⟨t, ht⟩ := hp
  have h1 : n <+: n' ++ [⟨50, nniBytes j⟩] := ⟨[⟨50, nniBytes i⟩] ++ t, by rw [← ht, List.append_assoc]⟩
  have hl : n.length ≤ n'.length := by
    have := congrArg List.length ht
    simp at this; omega
  exact List.prefix_of_prefix_length_le h1 (List.prefix_append _ _) hl

/-! The store -/

theorem storeInsert_keep {limit : Nat} {st pre post : List Data} {d x : Data} (h : st = pre ++ d :: post)
    (hl : post.length + 1 < limit) :
    ∃ pre' post', storeInsert limit st x = pre' ++ d :: post' ∧ post'.length ≤ post.length + 1 := by
  unfold storeInsert
  split
  · exact ⟨pre, post, h, by omega⟩
  · split
    · rename_i hge
      cases pre with
      | nil => rw [h] at hge; simp at hge; omega
      | cons a pre => exact ⟨pre, post ++ [x], by rw [h]; simp, by simp⟩
    · exact ⟨pre, post ++ [x], by rw [h]; simp, by simp⟩

theorem storeFold_keep {limit : Nat} (ds : List Data) : ∀ {st pre post : List Data} {d : Data}, st = pre ++ d :: post →
    post.length + ds.length < limit →
    ∃ pre' post', ds.foldl (storeInsert limit) st = pre' ++ d :: post' ∧ post'.length ≤ post.length + ds.length := by
  induction ds with
  | nil => intro st pre post d h _; exact ⟨pre, post, h, by simp⟩
  | cons x ds ih =>
    intro st pre post d h hl
    simp only [List.length_cons] at hl
    obtain ⟨pre1, post1, h1, h2⟩ := storeInsert_keep (limit := limit) (x := x) h (by omega)
    obtain ⟨pre2, post2, h3, h4⟩ := ih h1 (by omega)
    exact ⟨pre2, post2, h3, by simp only [List.length_cons]; omega⟩

theorem storeFold_new {limit : Nat} {ds st : List Data} {d : Data} (hd : d ∈ ds) (hn : d ∉ st) (hl : ds.length ≤ limit) :
    ∃ pre post, ds.foldl (storeInsert limit) st = pre ++ d :: post ∧ post.length < ds.length := by
  obtain ⟨a, b, rfl, ha⟩ := List.eq_append_cons_of_mem hd
  rw [List.foldl_append, List.foldl_cons]
  have hna : d ∉ a.foldl (storeInsert limit) st := fun h => (storeFold_mem a h).elim hn ha
  simp only [List.length_append, List.length_cons] at hl ⊢
  have : ∃ pre, storeInsert limit (a.foldl (storeInsert limit) st) d = pre ++ d :: [] := by
    generalize a.foldl (storeInsert limit) st = st1 at hna
    unfold storeInsert
    rw [if_neg hna]
    exact ⟨_, rfl⟩
  obtain ⟨pre, hp⟩ := this
  obtain ⟨pre', post', h1, h2⟩ := storeFold_keep (limit := limit) b hp (by simp; omega)
  exact ⟨pre', post', h1, by simp at h2; omega⟩

theorem eraseFold_keep (ts : List (Nat × Name)) : ∀ {st pre post : List Data} {d : Data}, st = pre ++ d :: post →
    (∀ t ∈ ts, t.2.isPrefixOf d.name = false) →
    ∃ pre' post', ts.foldl (fun st t => storeErase st t.2) st = pre' ++ d :: post' ∧ post'.length ≤ post.length := by
  induction ts with
  | nil => intro st pre post d h _; exact ⟨pre, post, h, le_refl _⟩
  | cons t ts ih =>
    intro st pre post d h ht
    have h1 : storeErase st t.2 = storeErase pre t.2 ++ d :: storeErase post t.2 := by
      rw [h]
      simp only [storeErase, List.filter_append, List.filter_cons, ht t (by simp), Bool.not_false, if_true]
    obtain ⟨pre2, post2, h3, h4⟩ := ih h1 (fun t' ht' => ht t' (List.mem_cons_of_mem _ ht'))
    exact ⟨pre2, post2, h3, h4.trans (List.length_filter_le _ _)⟩

/-! Timers belong to replies -/

/-- Every erasure timer was set for a packet of a reply. -/
def TimersRecorded (ρ : Rules) (v : View) : Prop :=
  ∀ t ∈ v.pub.timers, ∃ (k : Nat) (e : Name × Bytes × Nat), v.replies[k]? = some e ∧
    ∃ d ∈ segmentData (e.1.appendVersion (ρ.version k)) e.2.1 e.2.2, t.2 = d.name

theorem Micro.timersRecorded {ρ : Rules} {v v' : View} (h : Micro ρ v v') (hr : TimersRecorded ρ v) : TimersRecorded ρ v' := by
  cases h with
  | data now iname dname buf fr r hd h =>
    intro t ht
    simp only [(publish_ok h).2.1, List.mem_append, List.mem_map] at ht
    rcases ht with ht | ⟨d, hd, rfl⟩
    · obtain ⟨k, e, h1, h2⟩ := hr t ht
      refine ⟨k, e, ?_, h2⟩
      rw [List.getElem?_append_left (List.getElem?_eq_some_iff.mp h1).1]
      exact h1
    · exact ⟨v.replies.length, (dname, buf, fr), by simp, d, hd, rfl⟩
  | fire t =>
    intro t ht
    simp only [SegPub.fire, List.mem_filter] at ht
    exact hr t ht.1
  | _ => exact hr

theorem Micros.timersRecorded {ρ : Rules} {v v' : View} (h : Micros ρ v v') (hr : TimersRecorded ρ v) : TimersRecorded ρ v' := by
  induction h with
  | refl => exact hr
  | tail _ h ih => exact h.timersRecorded ih

theorem Micro.clock {ρ : Rules} {v v' : View} (h : Micro ρ v v') : v.now ≤ v'.now := by
  cases h with
  | tick t h => exact h
  | _ => exact le_refl _

theorem Micros.clock {ρ : Rules} {v v' : View} (h : Micros ρ v v') : v.now ≤ v'.now := by
  induction h with
  | refl => exact le_refl _
  | tail _ h ih => exact ih.trans h.clock

/-- The number of packets of the replies from number `k` on. -/
def packetsFrom (replies : List (Name × Bytes × Nat)) (k : Nat) : Nat :=
  ((replies.drop k).map (fun e => (segmentData e.1 e.2.1 e.2.2).length)).sum

theorem packetsFrom_mono {a b : List (Name × Bytes × Nat)} (h : a <+: b) (k : Nat) : packetsFrom a k ≤ packetsFrom b k := by
  obtain ⟨t, rfl⟩ := h
  unfold packetsFrom
  rw [List.drop_append, List.map_append, List.sum_append]
  omega

theorem packetsFrom_snoc {a : List (Name × Bytes × Nat)} {k : Nat} (h : k ≤ a.length) (e : Name × Bytes × Nat) :
    packetsFrom (a ++ [e]) k = packetsFrom a k + (segmentData e.1 e.2.1 e.2.2).length := by
  unfold packetsFrom
  rw [List.drop_append_of_le_length h, List.map_append, List.sum_append]
  simp

/-- The state of the store with respect to reply `k`, made at time `T` or later. -/
structure Present (limit T k : Nat) (segs : List Data) (fr : Nat) (v : View) : Prop where
  timers : ∀ t ∈ v.pub.timers, ∀ d ∈ segs, t.2 <+: d.name → T + fr ≤ t.1
  store : ∀ d ∈ segs, ∃ pre post, v.pub.store = pre ++ d :: post ∧ post.length < packetsFrom v.replies k

theorem Micros.present {ρ : Rules} {v v' : View} (h : Micros ρ v v') (hrec : Recorded ρ v) (htr : TimersRecorded ρ v)
    (k : Nat) (hk : v.replies.length ≤ k) (name : Name) (buf : Bytes) (fr : Nat) :
    v'.replies[k]? = some (name, buf, fr) → packetsFrom v'.replies k ≤ ρ.limit → v'.now < v.now + fr →
    (∀ (j : Nat) (e : Name × Bytes × Nat), v'.replies[j]? = some e → j ≠ k →
      ¬ e.1.appendVersion (ρ.version j) <+: name.appendVersion (ρ.version k)) →
    Present ρ.limit v.now k (segmentData (name.appendVersion (ρ.version k)) buf fr) fr v' := by
  induction h with
  | refl =>
    intro he
    have := (List.getElem?_eq_some_iff.mp he).1
    omega
  | @tail w v' h1 h ih =>
    have hclock := Micros.clock h1
    have same : w.pub = v'.pub → w.replies = v'.replies → v'.replies[k]? = some (name, buf, fr) →
        packetsFrom v'.replies k ≤ ρ.limit → v'.now < v.now + fr →
        (∀ (j : Nat) (e : Name × Bytes × Nat), v'.replies[j]? = some e → j ≠ k →
          ¬ e.1.appendVersion (ρ.version j) <+: name.appendVersion (ρ.version k)) →
        Present ρ.limit v.now k (segmentData (name.appendVersion (ρ.version k)) buf fr) fr v' := by
      intro e1 e2 a1 a2 a3 a4
      have := ih (e2 ▸ a1) (e2 ▸ a2) (by have := h.clock; omega) (e2 ▸ a4)
      exact ⟨e1 ▸ this.timers, fun d hd => by
        obtain ⟨pre, post, g1, g2⟩ := this.store d hd
        exact ⟨pre, post, e1 ▸ g1, e2 ▸ g2⟩⟩
    cases h with
    | add p => exact same rfl rfl
    | remove p b' hp h => exact same rfl rfl
    | publish p q b' hp hq hreg h => exact same rfl rfl
    | merge us b' hm hu h => exact same rfl rfl
    | interest n lt h => exact same rfl rfl
    | stored n d h => exact same rfl rfl
    | nack d h => exact same rfl rfl
    | tick t h => exact same rfl rfl
    | fire t ht =>
      intro a1 a2 a3 a4
      have hp := ih a1 a2 a3 a4
      refine ⟨fun t' ht' => hp.timers t' (List.mem_filter.mp ht').1, fun d hd => ?_⟩
      obtain ⟨pre, post, g1, g2⟩ := hp.store d hd
      obtain ⟨pre', post', g3, g4⟩ := eraseFold_keep (w.pub.timers.filter (fun t' => t'.1 ≤ t)) g1 (by
        intro t' ht'
        simp only [List.mem_filter, decide_eq_true_eq] at ht'
        by_contra hc
        rw [Bool.not_eq_false, List.isPrefixOf_iff_prefix] at hc
        have := hp.timers t' ht'.1 d hd hc
        simp only at a3
        omega)
      exact ⟨pre', post', g3, by simp only; omega⟩
    | data now iname dname b f r hd h hnow =>
      intro a1 a2 a3 a4
      obtain ⟨p1, p2, _⟩ := publish_ok h
      simp only at a1 a2 a3 a4
      have hrw := Micros.recorded h1 hrec
      have htw := Micros.timersRecorded h1 htr
      have up : ∀ {j : Nat} {e : Name × Bytes × Nat}, w.replies[j]? = some e → (w.replies ++ [(dname, b, f)])[j]? = some e := by
        intro j e hj
        rw [List.getElem?_append_left (List.getElem?_eq_some_iff.mp hj).1]
        exact hj
      by_cases hkw : k < w.replies.length
      · rw [List.getElem?_append_left hkw] at a1
        rw [packetsFrom_snoc (by omega)] at a2
        have hp := ih a1 (by omega) a3 (fun j e hj hne => a4 j e (up hj) hne)
        have hcnt : (segmentData (dname.appendVersion (ρ.version w.replies.length)) b f).length = (segmentData dname b f).length :=
          segmentData_count _ _ _ _ _
        refine ⟨?_, fun d hd' => ?_⟩
        · intro t ht d hd' hpre
          simp only [p2, List.mem_append, List.mem_map] at ht
          rcases ht with ht | ⟨x, hx, rfl⟩
          · exact hp.timers t ht d hd' hpre
          · exact absurd (prefix_of_segments hx hd' hpre)
              (a4 w.replies.length (dname, b, f) (by simp) (by omega))
        · obtain ⟨pre, post, g1, g2⟩ := hp.store d hd'
          obtain ⟨pre', post', g3, g4⟩ := storeFold_keep (limit := ρ.limit)
            (segmentData (dname.appendVersion (ρ.version w.replies.length)) b f) g1 (by simp only at a2; omega)
          refine ⟨pre', post', by simp only [p1]; exact g3, ?_⟩
          simp only
          rw [packetsFrom_snoc (by omega)]
          simp only
          omega
      · have hke : k = w.replies.length := by
          have := (List.getElem?_eq_some_iff.mp a1).1
          simp at this
          omega
        subst hke
        simp only [List.getElem?_concat_length, Option.some.injEq, Prod.mk.injEq] at a1
        obtain ⟨rfl, rfl, rfl⟩ := a1
        have hcnt : (segmentData (dname.appendVersion (ρ.version w.replies.length)) b f).length = (segmentData dname b f).length :=
          segmentData_count _ _ _ _ _
        have hzero : packetsFrom w.replies w.replies.length = 0 := by simp [packetsFrom]
        rw [packetsFrom_snoc (le_refl _), hzero] at a2
        refine ⟨?_, fun d hd' => ?_⟩
        · intro t ht d hd' hpre
          simp only [p2, List.mem_append, List.mem_map] at ht
          rcases ht with ht | ⟨x, hx, rfl⟩
          · obtain ⟨j, e, hj, x, hx, hxn⟩ := htw t ht
            rw [hxn] at hpre
            exact absurd (prefix_of_segments hx hd' hpre)
              (a4 j e (up hj) (by have := (List.getElem?_eq_some_iff.mp hj).1; omega))
          · simp only; omega
        · have hn : d ∉ w.pub.store := by
            intro hin
            obtain ⟨j, e, hj, hx⟩ := hrw.store d hin
            exact a4 j e (up hj) (by have := (List.getElem?_eq_some_iff.mp hj).1; omega)
              (prefix_of_segments hx hd' List.prefix_rfl)
          obtain ⟨pre, post, g1, g2⟩ := storeFold_new (limit := ρ.limit) hd' hn (by simp only at a2; omega)
          refine ⟨pre, post, by simp only [p1]; exact g1, ?_⟩
          simp only
          rw [packetsFrom_snoc (le_refl _), hzero]
          simp only
          omega

/-- A present packet is what an Interest with its name is answered with. -/
theorem Present.found {ρ : Rules} {T k : Nat} {v : View} {name : Name} {buf : Bytes} {fr : Nat}
    (h : Present ρ.limit T k (segmentData (name.appendVersion (ρ.version k)) buf fr) fr v) (hrec : Recorded ρ v)
    (he : v.replies[k]? = some (name, buf, fr)) (hroom : packetsFrom v.replies k ≤ ρ.limit) (hlim : ρ.limit < 2 ^ 64)
    (hn : ∀ (j : Nat) (e : Name × Bytes × Nat), v.replies[j]? = some e → j ≠ k →
      ¬ e.1.appendVersion (ρ.version j) <+: name.appendVersion (ρ.version k))
    {d : Data} (hd : d ∈ segmentData (name.appendVersion (ρ.version k)) buf fr) : v.pub.replyFromStore d.name = some d := by
  obtain ⟨pre, post, g1, _⟩ := h.store d hd
  have hmem : d ∈ v.pub.store := by rw [g1]; simp
  unfold SegPub.replyFromStore
  cases hf : storeFind v.pub.store d.name with
  | none =>
    have := storeFind_none.mp hf d hmem
    rw [List.isPrefixOf_iff_prefix.mpr List.prefix_rfl] at this
    cases this
  | some x =>
    obtain ⟨h1, h2, h3⟩ := storeFind_some hf
    rw [List.isPrefixOf_iff_prefix] at h2
    have heq : d.name = x.name := by
      by_contra hne
      have := h3 d hmem (List.isPrefixOf_iff_prefix.mpr List.prefix_rfl)
      rw [Name.lt_of_prefix h2 hne] at this
      cases this
    obtain ⟨j, e, hj, hx⟩ := hrec.store x h1
    by_cases hjk : j = k
    · subst hjk
      rw [he, Option.some.injEq] at hj
      subst hj
      simp only at hx
      obtain ⟨i1, l1, n1, e1⟩ := segmentData_mem hd
      obtain ⟨i2, l2, n2, e2⟩ := segmentData_mem hx
      rw [heq, n2] at n1
      simp only [List.append_cancel_left_eq, List.cons.injEq, Tlv.mk.injEq, true_and, and_true] at n1
      have hle : (segmentData (name.appendVersion (ρ.version j)) buf fr).length ≤ packetsFrom v.replies j := by
        have hj := (List.getElem?_eq_some_iff.mp he)
        unfold packetsFrom
        rw [List.drop_eq_getElem_cons hj.1, List.map_cons, List.sum_cons, hj.2]
        simp only
        rw [segmentData_count _ _ _ name fr]
        omega
      have := nniBytes_inj (by omega) (by omega) n1
      rw [this, e1] at e2
      exact e2.symm
    · exact absurd (prefix_of_segments hx hd (heq ▸ List.prefix_rfl)) (hn j e hj hjk)

end PSync
