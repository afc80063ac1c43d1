import Verif.Model.Consumer
import Verif.Spec.Consumer
import Verif.Proofs.Merge
import Verif.Proofs.Tiling
import Verif.Props.Bloom
/-!
Proof support for the consumer: a run is a sequence of small steps, and what they preserve.
-/
namespace PSync
open Spec

/-- The moments of a consumer's execution: API calls (also those made inside callbacks), the processing of
a hello or sync content up to the callback, the callbacks, and bookkeeping of fetchers and timers.  `C` are
the calls that may be made. -/
inductive CMicro (cfg : CCfg) (C : Cons.Call → Prop) : Cons → Cons → Prop
  | call {s s' : Cons} (c : Cons.Call) (hc : C c) (h : Cons.call cfg s c = .ok s') : CMicro cfg C s s'
  | helloData {s : Cons} (names : List Name) (r : NMap Nat × List MissingDataInfo × NMap Nat) (ib : Name)
      (h : foldRes (Cons.helloStep s.subs) (s.prefixes, [], []) names = .ok r) :
      CMicro cfg C s { s with iblt := ib, prefixes := r.1 }
  | syncData {s : Cons} (names : List Name) (r : NMap Nat × List MissingDataInfo) (ib : Name)
      (h : foldRes Cons.syncStep (s.prefixes, []) names = .ok r) :
      CMicro cfg C s { s with iblt := ib, prefixes := r.1 }
  | notify (s : Cons) (us : List MissingDataInfo) : CMicro cfg C s (s.emit (.update us))
  | hello (s : Cons) (m : NMap Nat) : CMicro cfg C s (s.emit (.hello m))
  | internal {s s' : Cons} (h1 : s'.iblt = s.iblt) (h2 : s'.prefixes = s.prefixes) (h3 : s'.subs = s.subs)
      (h4 : s'.bloom = s.bloom) (h5 : s'.log = s.log) : CMicro cfg C s s'

/-- The states passed through in zero or more small steps. -/
abbrev CMicros (cfg : CCfg) (C : Cons.Call → Prop) : Cons → Cons → Prop := Relation.ReflTransGen (CMicro cfg C)

theorem CMicro.mono {cfg : CCfg} {C C' : Cons.Call → Prop} (hC : ∀ c, C c → C' c) {s s' : Cons} (h : CMicro cfg C s s') :
    CMicro cfg C' s s' := by
  cases h with
  | call c hc h => exact .call c (hC c hc) h
  | helloData names r ib h => exact .helloData names r ib h
  | syncData names r ib h => exact .syncData names r ib h
  | notify us => exact .notify _ us
  | hello m => exact .hello _ m
  | internal h1 h2 h3 h4 h5 => exact .internal h1 h2 h3 h4 h5

theorem CMicros.mono {cfg : CCfg} {C C' : Cons.Call → Prop} (hC : ∀ c, C c → C' c) {s s' : Cons} (h : CMicros cfg C s s') :
    CMicros cfg C' s s' := by
  induction h with
  | refl => exact .refl
  | tail _ h ih => exact ih.tail (h.mono hC)

namespace Cons

theorem calls_micros {cfg : CCfg} {C : Call → Prop} {s s' : Cons} {cs : List Call} (hC : ∀ c ∈ cs, C c)
    (h : foldRes (call cfg) s cs = .ok s') : CMicros cfg C s s' :=
  foldRes_rel (Q := CMicros cfg C) (fun _ => .refl) (fun _ _ _ => Relation.ReflTransGen.trans) cs
    (fun _ c _ hc h => .single (.call c (hC c hc) h)) h

theorem onHelloData_micros {cfg : CCfg} {C : Call → Prop} {s s' : Cons} {buf : Bytes} {a1 a2 : List Call}
    (hC : ∀ c ∈ a1 ++ a2, C c) (h : onHelloData cfg s buf a1 a2 = .ok s') : CMicros cfg C s s' := by
  unfold onHelloData at h
  simp only [Res.bind_eq_ok] at h
  obtain ⟨st, _, r, hr, s1, h1, h2⟩ := h
  refine (Relation.ReflTransGen.single (.helloData st.content r _ hr)).trans
    ((Relation.ReflTransGen.single (.hello _ r.2.2)).trans
      ((calls_micros (fun c hc => hC c (List.mem_append_left _ hc)) h1).trans ?_))
  split at h2
  · simp only [Res.ok.injEq] at h2; rw [h2]
  · exact (Relation.ReflTransGen.single (.notify _ _)).trans
      (calls_micros (fun c hc => hC c (List.mem_append_right _ hc)) h2)

theorem onSyncData_micros {cfg : CCfg} {C : Call → Prop} {s s' : Cons} {buf : Bytes} {a : List Call}
    (hC : ∀ c ∈ a, C c) (hS : C .sendSync) (h : onSyncData cfg s buf a = .ok s') : CMicros cfg C s s' := by
  unfold onSyncData at h
  simp only [Res.bind_eq_ok] at h
  obtain ⟨st, _, r, hr, s1, h1, h2⟩ := h
  refine (Relation.ReflTransGen.single (.syncData st.content r (s.syncDataName.drop (s.syncDataName.length - 1)) hr)).trans
    (Relation.ReflTransGen.trans (b := s1) ?_ (Relation.ReflTransGen.single (.call .sendSync hS h2)))
  split at h1
  · simp only [Res.ok.injEq] at h1; rw [h1]
  · exact (Relation.ReflTransGen.single (.notify _ _)).trans (calls_micros hC h1)

/-- The calls made during an event: those of the application, and the Interests the consumer sends itself. -/
def During (op : Op) (c : Call) : Prop := c ∈ callsIn op ∨ c = .sendHello ∨ c = .sendSync

theorem step_micros {cfg : CCfg} {s s' : Cons} {op : Op} (h : step cfg s op = .ok s') : CMicros cfg (During op) s s' := by
  have hS : During op .sendSync := Or.inr (Or.inr rfl)
  have hH : During op .sendHello := Or.inr (Or.inl rfl)
  cases op with
  | call c => exact .single (.call c (Or.inl (by simp [callsIn])) h)
  | helloSegment d =>
    simp only [step] at h
    split at h <;> simp only [Res.ok.injEq] at h <;> subst h
    · split
      · exact .single (.internal rfl rfl rfl rfl rfl)
      · exact .refl
    · exact .refl
  | helloComplete buf a1 a2 =>
    simp only [step] at h
    split at h
    · exact (Relation.ReflTransGen.single (.internal rfl rfl rfl rfl rfl)).trans (onHelloData_micros (fun _ hc => Or.inl hc) h)
    · simp only [Res.ok.injEq] at h; rw [h]
  | helloError =>
    simp only [step] at h
    split at h <;> simp only [Res.ok.injEq] at h <;> subst h
    · exact .single (.internal rfl rfl rfl rfl rfl)
    · exact .refl
  | syncSegment d =>
    simp only [step] at h
    split at h
    · have key : ∀ s1 : Cons, (.ok (if s1.contentType = .nack then s1.sendHelloInterest cfg else s1) : Res Cons) = .ok s' →
          CMicros cfg (During (.syncSegment d)) s1 s' := by
        intro s1 h1
        simp only [Res.ok.injEq] at h1
        subst h1
        split
        · exact .single (.call .sendHello hH rfl)
        · exact .refl
      split at h
      · exact (Relation.ReflTransGen.single (.internal rfl rfl rfl rfl rfl)).trans (key _ h)
      · exact key _ h
    · simp only [Res.ok.injEq] at h; rw [h]
  | syncComplete buf acts =>
    simp only [step] at h
    split at h
    · split at h
      · simp only [Res.ok.injEq] at h; subst h
        exact .single (.internal rfl rfl rfl rfl rfl)
      · exact (Relation.ReflTransGen.single (.internal rfl rfl rfl rfl rfl)).trans (onSyncData_micros (fun _ hc => Or.inl hc) hS h)
    · simp only [Res.ok.injEq] at h; rw [h]
  | syncError t =>
    simp only [step] at h
    split at h
    · split at h
      · exact (Relation.ReflTransGen.single (.internal rfl rfl rfl rfl rfl)).trans
          (.single (.call .sendSync hS h))
      · simp only [Res.ok.injEq] at h; subst h
        exact .single (.internal rfl rfl rfl rfl rfl)
    · simp only [Res.ok.injEq] at h; rw [h]
  | tick t =>
    simp only [step, Res.ok.injEq] at h
    subst h
    split
    · exact .single (.internal rfl rfl rfl rfl rfl)
    · exact .refl
  | fire =>
    simp only [step] at h
    split at h
    · simp only [Res.ok.injEq] at h; rw [h]
    · simp only [Res.ok.injEq] at h; subst h
      exact (Relation.ReflTransGen.single (.internal rfl rfl rfl rfl rfl)).trans (.single (.call .sendHello hH rfl))
    · exact (Relation.ReflTransGen.single (.internal rfl rfl rfl rfl rfl)).trans (.single (.call .sendSync hS h))

theorem run_micros {cfg : CCfg} {C : Call → Prop} {s s' : Cons} {ops : List Op} (hC : ∀ op ∈ ops, ∀ c, During op c → C c)
    (h : run cfg s ops = .ok s') : CMicros cfg C s s' :=
  foldRes_rel (Q := CMicros cfg C) (fun _ => .refl) (fun _ _ _ => Relation.ReflTransGen.trans) ops
    (fun _ op _ hop h => CMicros.mono (hC op hop) (step_micros h)) h

/-- The states passed through by a consumer, including those inside callbacks. -/
def Moment (cfg : CCfg) (s : Cons) : Prop := ∃ s0, init cfg = .ok s0 ∧ CMicros cfg (fun _ => True) s0 s

theorem Reach.moment {cfg : CCfg} {s : Cons} (h : Reach cfg s) : Moment cfg s := by
  obtain ⟨s0, ops, h0, h1⟩ := h
  exact ⟨s0, h0, run_micros (fun _ _ _ _ => trivial) h1⟩

theorem Moment.trans {cfg : CCfg} {C : Call → Prop} {s s' : Cons} (h : Moment cfg s) (h' : CMicros cfg C s s') : Moment cfg s' := by
  obtain ⟨s0, h0, h1⟩ := h
  exact ⟨s0, h0, h1.trans (CMicros.mono (fun _ _ => trivial) h')⟩

theorem splitName_ok {n p : Name} {q : Nat} (h : splitName n = .ok (p, q)) : announced n = some (p, q) ∧ q < U64 := by
  unfold splitName at h
  simp only [Res.bind_eq_ok, Res.ok.injEq, Prod.mk.injEq] at h
  obtain ⟨c, hc, x, hx, rfl, rfl⟩ := h
  exact announced_of hc hx

theorem splitName_of {n p : Name} {q : Nat} (h : announced n = some (p, q)) : splitName n = .ok (p, q) := by
  obtain ⟨c, h1, h2, h3⟩ := of_announced h
  unfold splitName
  rw [h1, Res.ok_bind, h2, Res.ok_bind, h3]

/-- What one name of a sync content does. -/
theorem syncStep_ok {a a' : NMap Nat × List MissingDataInfo} {n : Name} (h : syncStep a n = .ok a') :
    ∃ p q, announced n = some (p, q) ∧ q < U64 ∧
      ((a.1.find p = none ∧ a' = (a.1.set p q, a.2 ++ [⟨p, 1, q, 0⟩])) ∨
       (∃ c, a.1.find p = some c ∧ c < q ∧ a' = (a.1.set p q, a.2 ++ [⟨p, c + 1, q, 0⟩])) ∨
       (∃ c, a.1.find p = some c ∧ q ≤ c ∧ a' = a)) := by
  unfold syncStep at h
  rw [Res.bind_eq_ok] at h
  obtain ⟨⟨p, q⟩, h1, h2⟩ := h
  obtain ⟨ha, hq⟩ := splitName_ok h1
  refine ⟨p, q, ha, hq, ?_⟩
  simp only at h2
  split at h2
  · rename_i hf
    simp only [Res.ok.injEq] at h2
    exact Or.inl ⟨hf, h2.symm⟩
  · rename_i c hf
    split at h2 <;> simp only [Res.ok.injEq] at h2
    · rename_i hc
      rw [Nat.mod_eq_of_lt (by omega)] at h2
      exact Or.inr (Or.inl ⟨c, hf, hc, h2.symm⟩)
    · exact Or.inr (Or.inr ⟨c, hf, by omega, h2.symm⟩)

/-- What one name of a hello content does, if every subscribed prefix has a number. -/
theorem helloStep_ok {subs : NMap Unit} {a a' : NMap Nat × List MissingDataInfo × NMap Nat} {n : Name}
    (hk : ∀ p, (subs.find p).isSome → (a.1.find p).isSome) (h : helloStep subs a n = .ok a') :
    ∃ p q, announced n = some (p, q) ∧ q < U64 ∧ a'.2.2 = a.2.2.emplace p q ∧
      ((∃ c, (subs.find p).isSome ∧ a.1.find p = some c ∧ c < q ∧ a'.1 = a.1.set p q ∧
          a'.2.1 = a.2.1 ++ [⟨p, c + 1, q, 0⟩]) ∨
       (((subs.find p).isSome → ∃ c, a.1.find p = some c ∧ q ≤ c) ∧ a'.1 = a.1 ∧ a'.2.1 = a.2.1)) := by
  unfold helloStep at h
  rw [Res.bind_eq_ok] at h
  obtain ⟨⟨p, q⟩, h1, h2⟩ := h
  obtain ⟨ha, hq⟩ := splitName_ok h1
  refine ⟨p, q, ha, hq, ?_⟩
  simp only at h2
  split at h2
  · rename_i hs
    obtain ⟨c, hc⟩ := Option.isSome_iff_exists.mp (hk p hs)
    simp only [hc, Option.getD_some] at h2
    have he : a.1.emplace p 0 = a.1 := by unfold NMap.emplace; rw [hc]
    rw [he] at h2
    split at h2 <;> simp only [Res.ok.injEq] at h2 <;> subst h2
    · rename_i hcq
      rw [Nat.mod_eq_of_lt (by omega)]
      exact ⟨rfl, Or.inl ⟨c, hs, hc, hcq, rfl, rfl⟩⟩
    · exact ⟨rfl, Or.inr ⟨fun _ => ⟨c, hc, by omega⟩, rfl, rfl⟩⟩
  · rename_i hs
    simp only [Res.ok.injEq] at h2
    subst h2
    exact ⟨rfl, Or.inr ⟨fun h => absurd h hs, rfl, rfl⟩⟩

end Cons

theorem live_append (acc : List Name) (o o' : List BfOp) : live acc (o ++ o') = live (live acc o) o' := by
  induction o generalizing acc with
  | nil => rfl
  | cons x o ih => cases x <;> simp only [List.cons_append, live, ih]

theorem mem_live_ins (ns : List Name) (acc : List Name) (n : Name) :
    n ∈ live acc (ns.map BfOp.ins) ↔ n ∈ acc ∨ n ∈ ns := by
  induction ns generalizing acc with
  | nil => simp [live]
  | cons m ns ih => simp only [List.map_cons, live, ih, List.mem_cons]; tauto

theorem runBf_ins (bf : Bloom) (ns : List Name) : runBf bf (ns.map BfOp.ins) = foldRes Bloom.insert bf ns := by
  unfold runBf
  induction ns generalizing bf with
  | nil => rfl
  | cons m ns ih => simp only [List.map_cons, foldRes, BfOp.apply]; congr 1; funext b; exact ih b

theorem runBf_append (bf : Bloom) (o o' : List BfOp) : runBf bf (o ++ o') = Res.bind (runBf bf o) (fun b => runBf b o') :=
  foldRes_append _ _ _ _

/-- What holds at every moment of a consumer whose filter started as `bf0`. -/
structure CInv (bf0 : Bloom) (s : Cons) : Prop where
  psorted : s.prefixes.Sorted
  ssorted : s.subs.Sorted
  sub : ∀ p, (s.subs.find p).isSome → (s.prefixes.find p).isSome
  lt : ∀ p x, s.prefixes.find p = some x → x < U64
  bloom : ∃ ops, runBf bf0 ops = .ok s.bloom ∧ ∀ n, n ∈ live [] ops ↔ (s.subs.find n).isSome

namespace Cons

theorem addSubscription_ok {s s' : Cons} {p : Name} {seq : Nat} {cb r : Bool}
    (h : s.addSubscription p seq cb = .ok (r, s')) :
    ((s.prefixes.find p).isSome ∧ r = false ∧ s' = s) ∨
    (s.prefixes.find p = none ∧ r = true ∧ ∃ bf, s.bloom.insert p = .ok bf ∧
      s'.prefixes = s.prefixes.set p (seq % U64) ∧ s'.subs = s.subs.set p () ∧ s'.bloom = bf ∧ s'.iblt = s.iblt ∧
      s'.log = s.log ++ (if cb && decide (seq % U64 ≠ 0) then [.update [⟨p, seq % U64, seq % U64, 0⟩]] else [])) := by
  unfold addSubscription at h
  split at h
  · rename_i x hx
    simp only [Res.ok.injEq, Prod.mk.injEq] at h
    exact Or.inl ⟨by rw [hx]; rfl, h.1.symm, h.2.symm⟩
  · rename_i hx
    simp only [Res.bind_eq_ok, Res.ok.injEq, Prod.mk.injEq] at h
    obtain ⟨bf, hbf, rfl, rfl⟩ := h
    refine Or.inr ⟨hx, rfl, bf, hbf, ?_⟩
    split <;> simp [emit]

theorem removeSubscription_ok {s s' : Cons} {p : Name} {r : Bool} (h : s.removeSubscription p = .ok (r, s')) :
    (s.subs.find p = none ∧ r = false ∧ s' = s) ∨
    ((s.subs.find p).isSome ∧ r = true ∧ ∃ bf, foldRes Bloom.insert s.bloom.clear (s.subs.erase p).keys = .ok bf ∧
      s' = { s with prefixes := s.prefixes.erase p, subs := s.subs.erase p, bloom := bf }) := by
  unfold removeSubscription isSubscribed at h
  split at h
  · rename_i hx
    simp only [Res.ok.injEq, Prod.mk.injEq] at h
    exact Or.inl ⟨by simpa using hx, h.1.symm, h.2.symm⟩
  · rename_i hx
    simp only [Res.bind_eq_ok, Res.ok.injEq, Prod.mk.injEq] at h
    obtain ⟨bf, hbf, rfl, rfl⟩ := h
    exact Or.inr ⟨by simpa [Option.isSome_iff_ne_none] using hx, rfl, bf, hbf, rfl⟩

theorem sendSyncInterest_ok {cfg : CCfg} {s s' : Cons} (h : s.sendSyncInterest cfg = .ok s') :
    s.iblt ≠ [] ∧ ∃ cs, s.bloom.toComponents cfg.libm = .ok cs ∧
      s' = { s with syncFetcher := some true
                    log := s.log ++ [.interest (syncPrefixName cfg ++ cs ++ s.iblt) cfg.syncLifetime] } := by
  unfold sendSyncInterest at h
  split at h
  · exact absurd h (by simp)
  · rename_i hi
    simp only [Res.bind_eq_ok, Res.ok.injEq] at h
    obtain ⟨cs, h1, h2⟩ := h
    exact ⟨hi, cs, h1, by rw [← h2, leftRunning_stopFetch, Nat.add_zero]⟩

theorem find_set_isSome {β : Type} {m : NMap β} {p q : Name} {v : β} (h : (m.find q).isSome) :
    ((m.set p v).find q).isSome := by
  rw [NMap.find_set]; split <;> simp [h]

/-- The processing of a sync content keeps the numbers in order. -/
theorem sync_fold {names : List Name} {a r : NMap Nat × List MissingDataInfo}
    (h : foldRes syncStep a names = .ok r) (hs : a.1.Sorted) (hl : ∀ p x, a.1.find p = some x → x < U64) :
    r.1.Sorted ∧ (∀ p x, r.1.find p = some x → x < U64) ∧ (∀ p, (a.1.find p).isSome → (r.1.find p).isSome) := by
  have := foldRes_inv (P := fun r : NMap Nat × List MissingDataInfo => r.1.Sorted ∧
    (∀ p x, r.1.find p = some x → x < U64) ∧ (∀ p, (a.1.find p).isSome → (r.1.find p).isSome)) names
    (by
      rintro b n b' _ ⟨h1, h2, h3⟩ hst
      obtain ⟨p, q, _, hq, ⟨_, h⟩ | ⟨c, _, _, h⟩ | ⟨c, _, _, h⟩⟩ := syncStep_ok hst
      all_goals rw [h]
      · refine ⟨NMap.sorted_set h1 _ _, fun p' x hx => ?_, fun p' hp' => find_set_isSome (h3 p' hp')⟩
        rw [NMap.find_set] at hx
        split at hx
        · simp only [Option.some.injEq] at hx; omega
        · exact h2 _ _ hx
      · refine ⟨NMap.sorted_set h1 _ _, fun p' x hx => ?_, fun p' hp' => find_set_isSome (h3 p' hp')⟩
        rw [NMap.find_set] at hx
        split at hx
        · simp only [Option.some.injEq] at hx; omega
        · exact h2 _ _ hx
      · exact ⟨h1, h2, h3⟩) ⟨hs, hl, fun _ h => h⟩ h
  exact this

/-- The processing of a hello content keeps the numbers in order. -/
theorem hello_fold {subs : NMap Unit} {names : List Name} {a r : NMap Nat × List MissingDataInfo × NMap Nat}
    (h : foldRes (helloStep subs) a names = .ok r) (hk : ∀ p, (subs.find p).isSome → (a.1.find p).isSome)
    (hs : a.1.Sorted) (hl : ∀ p x, a.1.find p = some x → x < U64) :
    r.1.Sorted ∧ (∀ p x, r.1.find p = some x → x < U64) ∧ (∀ p, (a.1.find p).isSome → (r.1.find p).isSome) := by
  have := foldRes_inv (P := fun r : NMap Nat × List MissingDataInfo × NMap Nat => r.1.Sorted ∧
    (∀ p x, r.1.find p = some x → x < U64) ∧ (∀ p, (a.1.find p).isSome → (r.1.find p).isSome)) names
    (by
      rintro b n b' _ ⟨h1, h2, h3⟩ hst
      obtain ⟨p, q, _, hq, _, ⟨c, _, _, _, h, _⟩ | ⟨_, h, _⟩⟩ := helloStep_ok (fun p hp => h3 p (hk p hp)) hst
      all_goals rw [h]
      · refine ⟨NMap.sorted_set h1 _ _, fun p' x hx => ?_, fun p' hp' => find_set_isSome (h3 p' hp')⟩
        rw [NMap.find_set] at hx
        split at hx
        · simp only [Option.some.injEq] at hx; omega
        · exact h2 _ _ hx
      · exact ⟨h1, h2, h3⟩) ⟨hs, hl, fun _ h => h⟩ h
  exact this

theorem call_inv {cfg : CCfg} {bf0 : Bloom} {s s' : Cons} {c : Call} (hi : CInv bf0 s) (h : call cfg s c = .ok s') :
    CInv bf0 s' := by
  cases c with
  | addSubscription p seq cb =>
    simp only [call, Res.bind_eq_ok, Res.ok.injEq] at h
    obtain ⟨⟨r, s1⟩, h1, rfl⟩ := h
    rcases addSubscription_ok h1 with ⟨_, _, rfl⟩ | ⟨hx, _, bf, hbf, hp, hsub, hb, _, _⟩
    · exact hi
    · refine ⟨by rw [hp]; exact NMap.sorted_set hi.psorted _ _, by rw [hsub]; exact NMap.sorted_set hi.ssorted _ _, ?_, ?_, ?_⟩
      · intro q hq
        rw [hsub, NMap.find_set] at hq
        rw [hp, NMap.find_set]
        split
        · rfl
        · rename_i hne; rw [if_neg hne] at hq; exact hi.sub q hq
      · intro q x hx
        rw [hp, NMap.find_set] at hx
        split at hx
        · simp only [Option.some.injEq] at hx; subst hx; exact Nat.mod_lt _ (by decide)
        · exact hi.lt q x hx
      · obtain ⟨ops, h1, h2⟩ := hi.bloom
        refine ⟨ops ++ [.ins p], ?_, ?_⟩
        · rw [runBf_append, h1, hb, Res.ok_bind]
          unfold runBf
          simp only [foldRes, BfOp.apply, hbf, Res.ok_bind]
        · intro n
          rw [live_append]
          simp only [live, List.mem_cons, hsub, NMap.find_set, h2]
          by_cases hn : n = p
          · subst hn; simp
          · rw [if_neg (fun e => hn e.symm)]; simp [hn]
  | removeSubscription p =>
    simp only [call, Res.bind_eq_ok, Res.ok.injEq] at h
    obtain ⟨⟨r, s1⟩, h1, rfl⟩ := h
    rcases removeSubscription_ok h1 with ⟨_, _, rfl⟩ | ⟨hx, _, bf, hbf, rfl⟩
    · exact hi
    · refine ⟨NMap.sorted_erase hi.psorted _, NMap.sorted_erase hi.ssorted _, ?_, ?_, ?_⟩
      · intro q hq
        simp only [NMap.find_erase] at hq ⊢
        split
        · rename_i he; simp [he] at hq
        · rename_i hne; rw [if_neg hne] at hq; exact hi.sub q hq
      · intro q x hx
        simp only [NMap.find_erase] at hx
        split at hx
        · simp at hx
        · exact hi.lt q x hx
      · obtain ⟨ops, h1, h2⟩ := hi.bloom
        refine ⟨ops ++ .clear :: (s.subs.erase p).keys.map .ins, ?_, ?_⟩
        · rw [runBf_append, h1, Res.ok_bind]
          show Res.bind (.ok s.bloom.clear) (fun b => runBf b _) = _
          rw [Res.ok_bind, runBf_ins, hbf]
        · intro n
          rw [live_append]
          simp only [live, mem_live_ins, List.not_mem_nil, false_or]
          exact NMap.mem_keys
  | sendHello =>
    simp only [call, Res.ok.injEq] at h
    subst h
    exact ⟨hi.psorted, hi.ssorted, hi.sub, hi.lt, hi.bloom⟩
  | sendSync =>
    obtain ⟨_, cs, _, rfl⟩ := sendSyncInterest_ok (show s.sendSyncInterest cfg = .ok s' from h)
    exact ⟨hi.psorted, hi.ssorted, hi.sub, hi.lt, hi.bloom⟩
  | stop =>
    simp only [call, Res.ok.injEq] at h
    subst h
    exact ⟨hi.psorted, hi.ssorted, hi.sub, hi.lt, hi.bloom⟩

end Cons

theorem CMicro.inv {cfg : CCfg} {C : Cons.Call → Prop} {bf0 : Bloom} {s s' : Cons} (h : CMicro cfg C s s') (hi : CInv bf0 s) : CInv bf0 s' := by
  cases h with
  | call c _ h => exact Cons.call_inv hi h
  | helloData names r ib h =>
    obtain ⟨h1, h2, h3⟩ := Cons.hello_fold h hi.sub hi.psorted hi.lt
    exact ⟨h1, hi.ssorted, fun p hp => h3 p (hi.sub p hp), h2, hi.bloom⟩
  | syncData names r ib h =>
    obtain ⟨h1, h2, h3⟩ := Cons.sync_fold h hi.psorted hi.lt
    exact ⟨h1, hi.ssorted, fun p hp => h3 p (hi.sub p hp), h2, hi.bloom⟩
  | notify us => exact ⟨hi.psorted, hi.ssorted, hi.sub, hi.lt, hi.bloom⟩
  | hello m => exact ⟨hi.psorted, hi.ssorted, hi.sub, hi.lt, hi.bloom⟩
  | internal h1 h2 h3 h4 h5 =>
    exact ⟨h2 ▸ hi.psorted, h3 ▸ hi.ssorted, h2 ▸ h3 ▸ hi.sub, h2 ▸ hi.lt, h3 ▸ h4 ▸ hi.bloom⟩

theorem CMicros.inv {cfg : CCfg} {C : Cons.Call → Prop} {bf0 : Bloom} {s s' : Cons} (h : CMicros cfg C s s') (hi : CInv bf0 s) : CInv bf0 s' := by
  induction h with
  | refl => exact hi
  | tail _ h ih => exact h.inv ih

namespace Cons

theorem init_ok {cfg : CCfg} {s : Cons} (h : init cfg = .ok s) :
    ∃ bf, Bloom.new cfg.libm cfg.extraSalt cfg.bfCount cfg.bfFpp = .ok bf ∧ s.bloom = bf ∧ s.prefixes = [] ∧
      s.subs = [] ∧ s.log = [] ∧ s.iblt = [] := by
  unfold init at h
  simp only [Res.bind_eq_ok, Res.ok.injEq] at h
  obtain ⟨bf, h1, rfl⟩ := h
  exact ⟨bf, h1, rfl, rfl, rfl, rfl, rfl⟩

theorem Moment.inv {cfg : CCfg} {s : Cons} (h : Moment cfg s) :
    ∃ bf0, Bloom.new cfg.libm cfg.extraSalt cfg.bfCount cfg.bfFpp = .ok bf0 ∧ CInv bf0 s := by
  obtain ⟨s0, h0, h1⟩ := h
  obtain ⟨bf, hb, e1, e2, e3, _, _⟩ := init_ok h0
  refine ⟨bf, hb, h1.inv ⟨by rw [e2]; exact NMap.sorted_nil, by rw [e3]; exact NMap.sorted_nil, ?_, ?_, ?_⟩⟩
  · intro p hp; rw [e3] at hp; simp at hp
  · intro p x hx; rw [e2] at hx; simp at hx
  · refine ⟨[], by rw [e1]; rfl, fun n => ?_⟩
    rw [e3]; simp [live]

end Cons

/-- A small step adds at most one output. -/
theorem CMicro.log {cfg : CCfg} {C : Cons.Call → Prop} {s s' : Cons} (h : CMicro cfg C s s') : s'.log = s.log ∨ ∃ o, s'.log = s.log ++ [o] := by
  cases h with
  | call c _ h =>
    cases c with
    | addSubscription p seq cb =>
      simp only [Cons.call, Res.bind_eq_ok, Res.ok.injEq] at h
      obtain ⟨⟨r, s1⟩, h1, rfl⟩ := h
      rcases Cons.addSubscription_ok h1 with ⟨_, _, rfl⟩ | ⟨hx, _, bf, hbf, hp, hsub, hb, _, hl⟩
      · exact Or.inl rfl
      · rw [hl]; split
        · exact Or.inr ⟨_, rfl⟩
        · exact Or.inl (List.append_nil _)
    | removeSubscription p =>
      simp only [Cons.call, Res.bind_eq_ok, Res.ok.injEq] at h
      obtain ⟨⟨r, s1⟩, h1, rfl⟩ := h
      rcases Cons.removeSubscription_ok h1 with ⟨_, _, rfl⟩ | ⟨hx, _, bf, hbf, rfl⟩ <;> exact Or.inl rfl
    | sendHello =>
      simp only [Cons.call, Res.ok.injEq] at h
      subst h
      exact Or.inr ⟨_, rfl⟩
    | sendSync =>
      obtain ⟨_, cs, _, rfl⟩ := Cons.sendSyncInterest_ok (show s.sendSyncInterest cfg = .ok s' from h)
      exact Or.inr ⟨_, rfl⟩
    | stop =>
      simp only [Cons.call, Res.ok.injEq] at h
      subst h
      exact Or.inl rfl
  | helloData names r ib h => exact Or.inl rfl
  | syncData names r ib h => exact Or.inl rfl
  | notify us => exact Or.inr ⟨_, rfl⟩
  | hello m => exact Or.inr ⟨_, rfl⟩
  | internal h1 h2 h3 h4 h5 => exact Or.inl h5

theorem CMicros.log {cfg : CCfg} {C : Cons.Call → Prop} {s s' : Cons} (h : CMicros cfg C s s') : ∃ ext, s'.log = s.log ++ ext := by
  induction h with
  | refl => exact ⟨[], by simp⟩
  | tail _ h ih =>
    obtain ⟨ext, he⟩ := ih
    rcases h.log with h | ⟨o, h⟩
    · exact ⟨ext, h.trans he⟩
    · exact ⟨ext ++ [o], by rw [h, he, List.append_assoc]⟩

/-- The moment at which an output was made. -/
theorem CMicros.moment {cfg : CCfg} {C : Cons.Call → Prop} {s s' : Cons} (h : CMicros cfg C s s') {e1 e2 : List Out} {o : Out}
    (he : s'.log = s.log ++ e1 ++ o :: e2) :
    ∃ m m', CMicros cfg C s m ∧ CMicro cfg C m m' ∧ CMicros cfg C m' s' ∧ m.log = s.log ++ e1 ∧ m'.log = m.log ++ [o] := by
  induction h generalizing e2 with
  | refl =>
    have := congrArg List.length he
    simp at this
  | @tail b c hb hc ih =>
    rcases hc.log with h | ⟨o', h⟩
    · rw [h] at he
      obtain ⟨m, m', h1, h2, h3, h4⟩ := ih he
      exact ⟨m, m', h1, h2, h3.tail hc, h4⟩
    · rcases List.eq_nil_or_concat e2 with rfl | ⟨e3, o'', rfl⟩
      · rw [h] at he
        obtain ⟨h5, h6⟩ := List.append_inj' he rfl
        simp only [List.cons.injEq, and_true] at h6
        subst h6
        exact ⟨b, c, hb, hc, .refl, h5, h⟩
      · rw [h, List.concat_eq_append, ← List.cons_append, ← List.append_assoc] at he
        obtain ⟨h5, _⟩ := List.append_inj' he rfl
        obtain ⟨m, m', h1, h2, h3, h4⟩ := ih h5
        exact ⟨m, m', h1, h2, h3.tail hc, h4⟩

end PSync
