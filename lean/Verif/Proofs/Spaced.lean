import Verif.Proofs.Pace
/-!
The same sync Interest is not sent twice within 100 ms, unless the node itself answered it in between.
-/
namespace PSync
open Spec

theorem append_split {α : Type} {ext os a b : List α} {x : α} (h : ext ++ os = a ++ x :: b) (hx : x ∉ os) :
    ∃ b0, b = b0 ++ os ∧ ext = a ++ x :: b0 := by
  rcases List.append_eq_append_iff.mp h with ⟨a', h1, h2⟩ | ⟨c', h1, h2⟩
  · exact absurd (by rw [h2]; simp) hx
  · cases c' with
    | nil => rw [List.nil_append] at h2; exact absurd (by rw [← h2]; simp) hx
    | cons y b0 =>
      rw [List.cons_append, List.cons.injEq] at h2
      exact ⟨b0, h2.2, by rw [h1, h2.1]⟩

theorem append_one_split {α : Type} {ext a b : List α} {x y : α} (h : ext ++ [y] = a ++ x :: b) :
    (b = [] ∧ x = y ∧ ext = a) ∨ ∃ b0, b = b0 ++ [y] ∧ ext = a ++ x :: b0 := by
  rcases List.eq_nil_or_concat b with rfl | ⟨b0, z, rfl⟩
  · left
    obtain ⟨h1, h2⟩ := List.append_inj' h rfl
    simp only [List.cons.injEq, and_true] at h2
    exact ⟨rfl, h2.symm, h1⟩
  · right
    rw [List.concat_eq_append, ← List.cons_append, ← List.append_assoc] at h
    obtain ⟨h1, h2⟩ := List.append_inj' h rfl
    simp only [List.cons.injEq, and_true] at h2
    exact ⟨b0, by rw [List.concat_eq_append, h2], h1⟩

namespace Full

/-- A Data packet under the name `n` was sent. -/
def Answered (n : Name) (b : List Out) : Prop := ∃ d, Out.data d ∈ b ∧ n <+: d.name

theorem Answered.more {n : Name} {b c : List Out} (h : Answered n b) : Answered n (b ++ c) := by
  obtain ⟨d, h1, h2⟩ := h
  exact ⟨d, by simp [h1], h2⟩

/-- What was sent, if it was sent after `T` and less than 100 ms have passed, holds no repeated Interest without an answer
in between; and the last Interest is remembered, or was answered. -/
structure Tidy (cfg : Cfg) (T : Nat) (ext : List Out) (s : Full) : Prop where
  now : T ≤ s.now
  apart : s.now < T + 100 → ∀ a n t b t' c, ext = a ++ .interest n t :: (b ++ .interest n t' :: c) →
    (∀ m u, Out.interest m u ∉ b) → Answered n b
  last : ∀ a n t b, ext = a ++ .interest n t :: b → (∀ m u, Out.interest m u ∉ b) →
    (s.outstanding = n ∧ (∃ u, s.lastSent = some u ∧ T ≤ u ∧ u ≤ s.now) ∧ ∃ bs, syncName cfg bs = .ok n) ∨ Answered n b

/-- The outputs since the log was `l` are tidy. -/
def Spaced (cfg : Cfg) (T : Nat) (l : List Out) (s : Full) : Prop := ∃ ext, s.log = l ++ ext ∧ Tidy cfg T ext s

theorem Spaced.congr {cfg : Cfg} {T : Nat} {l : List Out} {s s' : Full} (h : Spaced cfg T l s) (h1 : s'.log = s.log)
    (h2 : s'.outstanding = s.outstanding) (h3 : s'.lastSent = s.lastSent) (h4 : s.now ≤ s'.now) : Spaced cfg T l s' := by
  obtain ⟨ext, e, e1, e2, e3⟩ := h
  refine ⟨ext, h1.trans e, by omega, fun hn => e2 (by omega), ?_⟩
  intro a n t b hx hb
  rw [h2, h3]
  exact (e3 a n t b hx hb).imp (fun ⟨x, ⟨u, y1, y2, y3⟩, z⟩ => ⟨x, ⟨u, y1, y2, by omega⟩, z⟩) id

theorem Tidy.more {cfg : Cfg} {T : Nat} {ext os : List Out} {s s' : Full} (h : Tidy cfg T ext s) (hos : ∀ n t, Out.interest n t ∉ os)
    (h4 : s'.now = s.now)
    (h5 : ∀ n, s.outstanding = n → (∃ bs, syncName cfg bs = .ok n) → (s'.outstanding = n ∧ s'.lastSent = s.lastSent) ∨ Answered n os) :
    Tidy cfg T (ext ++ os) s' := by
  obtain ⟨e1, e2, e3⟩ := h
  refine ⟨by omega, ?_, ?_⟩
  · intro hn a n t b t' c hx hb
    rw [h4] at hn
    rw [show a ++ Out.interest n t :: (b ++ Out.interest n t' :: c) = (a ++ Out.interest n t :: b) ++ Out.interest n t' :: c by simp] at hx
    obtain ⟨c0, _, hc⟩ := append_split hx (hos _ _)
    exact e2 hn a n t b t' c0 (by rw [hc]; simp) hb
  · intro a n t b hx hb
    obtain ⟨b0, rfl, hx0⟩ := append_split hx (hos _ _)
    rcases e3 a n t b0 hx0 (fun m u hm => hb m u (by simp [hm])) with ⟨x, ⟨u, y1, y2, y3⟩, z⟩ | h
    · rcases h5 n x z with ⟨w1, w2⟩ | ⟨d, w1, w2⟩
      · exact Or.inl ⟨w1, ⟨u, w2.trans y1, y2, by omega⟩, z⟩
      · exact Or.inr ⟨d, by simp [w1], w2⟩
    · exact Or.inr h.more

/-- Answering its own sync Interest, a node sends the first segment. -/
theorem publish_own {cfg : Cfg} {bs : Base} {n : Name} (hn : syncName cfg bs = .ok n) {p : SegPub} {limit now v : Nat} {buf : Bytes} {fr : Nat}
    {r : SegPub × List Data} (h : p.publish limit now v n n buf fr = .ok r) : Answered n (r.2.map Out.data) := by
  obtain ⟨v, segs, h1, h2⟩ := publish_sent h
  have h3 : n.getLast?.map (·.type) = some 8 := by
    unfold syncName at hn
    simp only [Res.bind_eq_ok, Res.ok.injEq] at hn
    obtain ⟨c, _, rfl⟩ := hn
    simp [Name.appendNumber, TlvType.generic]
  obtain ⟨c, hc, ht⟩ := Option.map_eq_some_iff.mp h3
  unfold asked at h2
  rw [hc] at h2
  simp only [ht] at h2
  rw [if_neg (by decide), List.getElem?_eq_getElem h1.nonempty] at h2
  refine ⟨segs[0]'h1.nonempty, by rw [h2]; simp, ?_⟩
  rw [h1.name 0 _ (List.getElem?_eq_getElem h1.nonempty)]
  unfold Name.appendVersion
  rw [List.append_assoc]
  exact List.prefix_append _ _

theorem Act.spaced {cfg : Cfg} {T : Nat} {l : List Out} {s s' : Full} (hs : Spaced cfg T l s) (h : Act cfg s s') : Spaced cfg T l s' := by
  obtain ⟨ext, he, hs⟩ := hs
  cases h with
  | tells os e hl hos => exact ⟨ext ++ os, by rw [hl, he, List.append_assoc], hs.more hos e.now (fun n hn _ => Or.inl ⟨by rw [e.outstanding, hn], e.lastSent⟩)⟩
  | free e hl => exact (Spaced.congr (s := s) ⟨ext, he, hs⟩ hl e.outstanding e.lastSent (by rw [e.now]))
  | own p limit now v buf fr r hp e hl =>
    exact ⟨ext ++ r.2.map Out.data, by rw [hl, he, List.append_assoc], hs.more (by simp) e.now
      (fun n hn ⟨bs, hbs⟩ => Or.inr (by subst hn; exact publish_own hbs hp))⟩
  | send h =>
    rcases sendSyncInterest_ok h with ⟨_, rfl⟩ | ⟨_, name, hname, ⟨_, _, rfl⟩ | ⟨hnot, rfl⟩⟩
    · exact ⟨ext, he, hs⟩
    · exact (Spaced.congr (s := s) ⟨ext, he, hs⟩ rfl rfl rfl (le_refl _))
    · refine ⟨ext ++ [.interest name cfg.lifetime], by simp [he], hs.now, ?_, ?_⟩
      · intro hn a n t b t' c hx hb
        rw [show a ++ Out.interest n t :: (b ++ Out.interest n t' :: c) = (a ++ Out.interest n t :: b) ++ Out.interest n t' :: c by simp] at hx
        rcases append_one_split hx with ⟨rfl, h1, h2⟩ | ⟨c0, rfl, h2⟩
        · simp only [Out.interest.injEq] at h1
          obtain ⟨rfl, _⟩ := h1
          rcases hs.last a n t b h2 hb with ⟨x, ⟨u, y1, y2, y3⟩, _⟩ | h3
          · exfalso
            rcases hnot with h4 | h4
            · unfold recentlySent at h4
              rw [y1] at h4
              have h4 := of_decide_eq_false h4
              simp only [MIN_JITTER] at h4
              simp only at hn
              omega
            · exact h4 x
          · exact h3
        · exact hs.apart hn a n t b t' c0 (by rw [h2]; simp) hb
      · intro a n t b hx hb
        rcases append_one_split hx with ⟨rfl, h1, _⟩ | ⟨b0, rfl, _⟩
        · simp only [Out.interest.injEq] at h1
          obtain ⟨rfl, _⟩ := h1
          exact Or.inl ⟨rfl, ⟨s.now, rfl, hs.now, le_refl _⟩, _, hname⟩
        · exact absurd (by simp) (hb name cfg.lifetime)

theorem Acts.spaced {cfg : Cfg} {T : Nat} {l : List Out} {s s' : Full} (hs : Spaced cfg T l s) (h : Acts cfg s s') : Spaced cfg T l s' :=
  h.inv (fun _ _ ha hab => Act.spaced ha hab) hs

theorem step_spaced {cfg : Cfg} {T : Nat} {l : List Out} {s s' : Full} {op : Op} (hs : Spaced cfg T l s)
    (h : step cfg s op = .ok s') : Spaced cfg T l s' := by
  rcases step_acts h with ha | ⟨t, rfl, ht, _, rfl⟩ | ⟨d, k, s0, rfl, _, _, h0, h1⟩ | ⟨f, t, _, hf, ha, rfl⟩ |
    ⟨f, buf, acts, _, hf, ha, h1⟩
  · exact ha.spaced hs
  · exact hs.congr rfl rfl rfl ht
  · refine Act.spaced ?_ (.send h1)
    rcases h0 with rfl | rfl
    · exact hs.congr rfl rfl rfl (le_refl _)
    · exact hs.congr rfl rfl rfl (le_refl _)
  · split
    · exact hs.congr rfl rfl rfl (le_refl _)
    · exact hs.congr rfl rfl rfl (le_refl _)
  · have h2 : Spaced cfg T l s.stopFetcher := hs.congr rfl rfl rfl (le_refl _)
    rcases onSyncData_acts h1 with ⟨h0, rfl⟩ | ⟨ns, h0, _, _, _, h3, h4, h5, h6⟩ | ⟨ns, us, s1, h0, h3, h4⟩
    · exact hs.congr rfl rfl rfl (le_refl _)
    · exact h2.congr h6 h3 h4 (by rw [h5])
    · refine Acts.spaced ?_ h4
      refine Spaced.congr (s := s1) (h3.spaced ?_) rfl rfl rfl (le_refl _)
      exact Act.spaced h2 (.tells [.update us] ⟨rfl, rfl, rfl, rfl, rfl, rfl⟩ rfl (by simp))

theorem run_spaced {cfg : Cfg} {T : Nat} {l : List Out} {ops : List Op} {s s' : Full} (hs : Spaced cfg T l s)
    (h : run cfg s ops = .ok s') : Spaced cfg T l s' :=
  foldRes_inv (P := Spaced cfg T l) ops (fun _ _ _ _ hs h => step_spaced hs h) hs h

end Full
end PSync
