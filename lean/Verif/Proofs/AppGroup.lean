import Mathlib.Data.Fintype.EquivFin
import Verif.Spec.AppGroup
import Verif.Proofs.ExamplesProduce
import Verif.Proofs.Group
import Verif.Props.ExamplesPrint
import Verif.Props.FullMerge
import Verif.Props.Group
/-!
Groups of full-sync example programs.
-/
namespace PSync
open Spec

theorem Micro.noUpdate {ρ : Rules} {v v' : View} (h : Micro ρ v v') (hm : ∀ us, ¬ ρ.merge us) :
    ∃ l, v'.log = v.log ++ l ∧ ∀ us, Out.update us ∉ l := by
  cases h with
  | merge us b' h _ _ => exact absurd h (hm us)
  | interest n lt h => exact ⟨_, rfl, by simp⟩
  | stored n d h => exact ⟨_, rfl, by simp⟩
  | nack d h => exact ⟨_, rfl, by simp⟩
  | data now iname dname buf fr r hd h hn => exact ⟨_, rfl, by simp⟩
  | _ => exact ⟨[], by simp, by simp⟩

/-- Without a merge, no update is reported. -/
theorem Micros.noUpdate {ρ : Rules} {v v' : View} (h : Micros ρ v v') (hm : ∀ us, ¬ ρ.merge us) :
    ∃ l, v'.log = v.log ++ l ∧ ∀ us, Out.update us ∉ l := by
  induction h with
  | refl => exact ⟨[], by simp, by simp⟩
  | tail _ h ih =>
    obtain ⟨l, h1, h2⟩ := ih
    obtain ⟨l', h3, h4⟩ := h.noUpdate hm
    exact ⟨l ++ l', by rw [h3, h1, List.append_assoc], fun us hu => (List.mem_append.mp hu).elim (h2 us) (h4 us)⟩

theorem Spec.Tiles.above {a b : Nat} {l : List (Nat × Nat)} (h : Tiles a l b) : ∀ r ∈ l, a < r.1 := by
  induction h with
  | nil a => simp
  | @cons a b h l hle ht ih =>
    intro r hr
    rcases List.mem_cons.mp hr with rfl | hr
    · simp
    · have := ih r hr; omega

theorem upTo_prefix {a k k' : Nat} (h : k ≤ k') : upTo a k <+: upTo a k' := by
  unfold upTo
  by_cases hk : a ≤ k + 1
  · rw [show k' + 1 - a = (k + 1 - a) + (k' - k) by omega, ← List.range'_append_1]
    exact List.prefix_append _ _
  · rw [show k + 1 - a = 0 by omega]
    exact List.nil_prefix

namespace FullApp

/-- What an event of the producer prints. -/
theorem produce_printed {cfg : PubAppCfg} {a a' : FullApp} {op : Full.Op} (h : produce cfg a op = .ok a') (p : Name) :
    printedFor p a'.printed = printedFor p a.printed ++ numbersIn (notified p (a'.prod.log.drop a.prod.log.length)) := by
  unfold produce at h
  simp only [Res.bind_eq_ok] at h
  obtain ⟨s, h1, out, h2, h⟩ := h
  cases h
  simp only
  rw [printedFor_append, (printUpdates_inv h2).1, notified_numbers]

/-- An API call prints nothing. -/
theorem produce_call_printed {cfg : PubAppCfg} {a a' : FullApp} {c : Full.Call} (hi : a.prod.base.Inv)
    (h : produce cfg a (.call c) = .ok a') (p : Name) : printedFor p a'.printed = printedFor p a.printed := by
  rw [produce_printed h p]
  obtain ⟨l, h1, h2⟩ := (Full.call_micro (M := fun _ => False) hi (produce_eq h).1).noUpdate (fun _ h => h)
  simp only [Full.view] at h1
  rw [h1, List.drop_left, notified_of_not_update p l h2]
  simp [numbersIn]

/-- Any other event prints the numbers that are new. -/
theorem produce_outside_printed {cfg : PubAppCfg} {a a' : FullApp} {op : Full.Op} (hr : Full.Reach cfg.pc a.prod)
    (ho : outside op = true) (h : produce cfg a op = .ok a') (p : Name) :
    Tiles (numberOf a.prod p) (notified p (a'.prod.log.drop a.prod.log.length)) (numberOf a'.prod p) ∧
    printedFor p a'.printed = printedFor p a.printed ++ upTo (numberOf a.prod p + 1) (numberOf a'.prod p) := by
  have hrun : Full.run cfg.pc a.prod [op] = .ok a'.prod := by
    unfold Full.run
    simp only [foldRes, (produce_eq h).1, Res.ok_bind]
  obtain ⟨ext, R, h1, h2, h3, h4⟩ := c27_ranges_tile cfg.pc a.prod a'.prod hr [op] p (by
    intro o hm
    rw [List.mem_singleton] at hm
    subst hm
    exact outside_removes ho p) hrun
  have hall : ∀ e ∈ R, e.1 = true := by
    rcases h4 with ⟨o, hm, hp⟩ | h
    · rw [List.mem_singleton] at hm
      subst hm
      cases o <;> simp_all [outside, Full.Op.Publishes]
    · exact h
  have hR : R.filter Prod.fst = R := List.filter_eq_self.mpr hall
  rw [hR] at h3
  rw [h3] at h2
  rw [produce_printed h p, h1, List.drop_left]
  exact ⟨h2, by rw [tiles_numbers h2]; rfl⟩

theorem addStream_eq {cfg : PubAppCfg} {a a' : FullApp} {p : Name} (h : addStream cfg a p = .ok a') :
    ∃ b, produce cfg a (.call (.addUserNode p)) = .ok b ∧ a' = schedule cfg b p := by
  unfold addStream at h
  simp only [Res.bind_eq_ok, Res.ok.injEq] at h
  obtain ⟨b, h1, h2⟩ := h
  exact ⟨b, h1, h2.symm⟩

theorem doUpdate_eq {cfg : PubAppCfg} {a a' : FullApp} {p : Name} (h : doUpdate cfg a p = .ok a') :
    ∃ b, produce cfg a (.call (.publishName p none)) = .ok b ∧ a'.prod = b.prod ∧ a'.printed = b.printed := by
  unfold doUpdate at h
  rw [Res.bind_eq_ok] at h
  obtain ⟨b, h1, h⟩ := h
  refine ⟨b, h1, ?_⟩
  split at h
  · cases h
  · simp only [Res.ok.injEq] at h
    subst h
    split <;> exact ⟨rfl, rfl⟩

theorem addUserNode_number {cfg : Cfg} {s s' : Full} {p : Name} (h : Full.step cfg s (.call (.addUserNode p)) = .ok s') (q : Name) :
    numberOf s' q = numberOf s q := by
  simp only [Full.step, Full.call, Res.ok.injEq] at h
  subst h
  simp only [numberOf, Base.getSeqNo, Base.find_addUserNode]
  split
  · rename_i hpq
    subst hpq
    simp
  · rfl

/-- What is known of the programs inside and out: the producer is in a reachable state, and has printed
all numbers of foreign prefixes. -/
def Foreign (cfg : PubAppCfg) (a : FullApp) : Prop :=
  Full.Reach cfg.pc a.prod ∧ ∀ p, p ∉ cfg.streams → printedFor p a.printed = upTo 1 (numberOf a.prod p)

theorem init_foreign {cfg : PubAppCfg} {a : FullApp} (h : init cfg = .ok a) :
    Foreign cfg a ∧ (∀ p, printedFor p a.printed = []) ∧ ∀ p, numberOf a.prod p = 0 := by
  unfold init at h
  rw [Res.bind_eq_ok] at h
  obtain ⟨s, h0, h⟩ := h
  have hs : ∀ p, numberOf s p = 0 := by
    intro p
    have := Full.init_base h0
    simp [numberOf, this, Base.getSeqNo, Base.new]
  have hI := foldRes_inv (P := fun a : FullApp => Full.Reach cfg.pc a.prod ∧ (∀ p, printedFor p a.printed = []) ∧ ∀ p, numberOf a.prod p = 0)
    cfg.streams (by
      rintro b p b' - ⟨h1, h2, h3⟩ hst
      obtain ⟨c, h4, rfl⟩ := addStream_eq hst
      have h5 := produce_eq h4
      refine ⟨h1.next h5.1, fun q => ?_, fun q => ?_⟩
      · simp only [schedule]
        rw [produce_call_printed (Full.reach_inv h1) h4, h2]
      · simp only [schedule]
        rw [addUserNode_number h5.1, h3]) (s := ⟨s, [], 0, [], []⟩) ⟨⟨s, [], h0, rfl⟩, fun _ => rfl, hs⟩ h
  exact ⟨⟨hI.1, fun p _ => by rw [hI.2.1, hI.2.2]; rfl⟩, hI.2⟩

theorem Foreign.step {cfg : PubAppCfg} {a a' : FullApp} {op : Op} (hd : OnlyStreams cfg a) (hf : Foreign cfg a)
    (h : step cfg a op = .ok a') : Foreign cfg a' := by
  cases op with
  | prod op =>
    simp only [FullApp.step] at h
    split at h
    · rename_i ho
      refine ⟨hf.1.next (produce_eq h).1, fun p hp => ?_⟩
      obtain ⟨h1, h2⟩ := produce_outside_printed hf.1 ho h p
      rw [h2, hf.2 p hp]
      have := h1.le
      unfold upTo
      rw [show numberOf a'.prod p + 1 - 1 = (numberOf a.prod p + 1 - 1) + (numberOf a'.prod p + 1 - (numberOf a.prod p + 1)) by omega,
        ← List.range'_append_1]
      congr 2
      omega
    · cases h; exact hf
  | update =>
    simp only [FullApp.step] at h
    split at h
    · cases h; exact hf
    · rename_i p ts ht
      obtain ⟨b, h1, h2, h3⟩ := doUpdate_eq h
      have h4 := produce_eq h1
      refine ⟨by rw [h2]; exact hf.1.next h4.1, fun q hq => ?_⟩
      have hp : p ∈ cfg.streams := hd p (by have := takeDueName_count ht p; rw [if_pos rfl] at this; omega)
      have hpq : p ≠ q := fun e => hq (e ▸ hp)
      rw [h3, h2, produce_call_printed (a := { a with timers := ts }) (Full.reach_inv hf.1) h1]
      simp only
      rw [hf.2 q hq]
      congr 1
      unfold numberOf
      have h5 := h4.1
      simp only at h5
      rcases Full.publishName_base h5 with ⟨_, h6⟩ | ⟨cur, _, h6⟩
      · rw [h6]
      · simp only [Base.getSeqNo]
        rw [Base.find_updateSeqNo h6, if_neg hpq]

theorem foreign {cfg : PubAppCfg} (hn : cfg.streams.Nodup) {a : FullApp} (hr : FullAppReach cfg a) : Foreign cfg a := by
  obtain ⟨a0, ops, h0, h⟩ := hr
  have := foldRes_inv (P := fun a => FullAppReach cfg a ∧ Foreign cfg a) ops (by
    rintro b op b' - ⟨⟨a0, ops, h1, h2⟩, hf⟩ hs
    refine ⟨⟨a0, ops ++ [op], h1, ?_⟩, hf.step (reach_inv hn ⟨a0, ops, h1, h2⟩).2 hs⟩
    unfold run at h2 ⊢
    rw [foldRes_append, h2]
    simp [Res.ok_bind, foldRes, hs]) ⟨⟨a0, [], h0, rfl⟩, (init_foreign h0).1⟩ h
  exact this.2

/-- An event of the program is an event of its producer, or does nothing to it. -/
theorem step_prod {cfg : PubAppCfg} {a a' : FullApp} {op : Op} (h : step cfg a op = .ok a') :
    (∃ o, Full.step cfg.pc a.prod o = .ok a'.prod) ∨ a'.prod = a.prod := by
  cases op with
  | prod op =>
    simp only [FullApp.step] at h
    split at h
    · exact .inl ⟨op, (produce_eq h).1⟩
    · rw [Res.ok.injEq] at h; rw [h]; exact .inr rfl
  | update =>
    simp only [FullApp.step] at h
    split at h
    · rw [Res.ok.injEq] at h; rw [h]; exact .inr rfl
    · obtain ⟨b, h1, h2, _⟩ := doUpdate_eq h
      exact .inl ⟨_, by rw [h2]; exact (produce_eq h1).1⟩

/-- What holds of a program's own stream in a group in which nobody else publishes it. -/
def Own (L : Nat) (a : FullApp) (p : Name) : Prop :=
  printedFor p a.printed = [] ∧ ∃ k, a.prod.base.getSeqNo p = some k ∧ printedFor p a.published = upTo 1 k ∧
    ((scheduled p a.timers = 1 ∧ (k < L ∨ k = 0)) ∨ (scheduled p a.timers = 0 ∧ k = max 1 L))

theorem init_own {cfg : PubAppCfg} (hn : cfg.streams.Nodup) {a : FullApp} (h : init cfg = .ok a) :
    ∀ p ∈ cfg.streams, Own cfg.limit a p := by
  obtain ⟨_, h1, h2⟩ := init_foreign h
  intro p hp
  obtain ⟨k, hk, h3, h4, h5⟩ := (init_inv hn h).1 p hp
  have hk0 : k = 0 := by have := h2 p; simpa [numberOf, hk] using this
  subst hk0
  have hnil : printedFor p a.published = [] := List.eq_nil_iff_forall_not_mem.mpr fun x hx => by
    have := h4 x hx; omega
  refine ⟨h1 p, 0, hk, by rw [hnil]; rfl, .inl ⟨?_, .inr rfl⟩⟩
  rcases h5 with h5 | h5
  · exact h5.1
  · exact absurd hnil h5.2.1

/-- An update of a stream. -/
theorem Own.update {cfg : PubAppCfg} {a a' : FullApp} {p : Name} {ts : List (Nat × Name)} {now : Nat} (hr : a.prod.base.Inv)
    (ht : takeDueName now a.timers = some (p, ts)) (hp : p ∈ cfg.streams) (hall : ∀ q ∈ cfg.streams, Own cfg.limit a q)
    (h : doUpdate cfg { a with timers := ts } p = .ok a') : ∀ q ∈ cfg.streams, Own cfg.limit a' q := by
  obtain ⟨hnp, k, hk, hpub, hor⟩ := hall p hp
  have hL := cfg.limit_lt
  have hc := takeDueName_count ht
  have hcp := hc p
  rw [if_pos rfl] at hcp
  have hs0 : scheduled p ts = 0 := by
    rcases hor with h1 | h1 <;> omega
  have hkl : k < cfg.limit ∨ k = 0 := by
    rcases hor with h1 | h1
    · exact h1.2
    · omega
  have hmod : max k ((k + 1) % U64) = k + 1 := by
    have : k + 1 < U64 := by
      rcases hkl with h1 | h1
      · omega
      · subst h1; decide
    rw [Nat.mod_eq_of_lt this]; omega
  have h0 := h
  unfold doUpdate at h0
  rw [Res.bind_eq_ok] at h0
  obtain ⟨b, hb, _⟩ := h0
  rw [doUpdate_ok (a := { a with timers := ts }) hk hb] at h
  simp only [Res.ok.injEq, hmod] at h
  obtain ⟨hs, hbt, _, _⟩ := produce_eq hb
  simp only at hs hbt
  have hseq := publish_seq (s := a.prod) hk hs
  rw [hmod] at hseq
  have hpr : ∀ q, printedFor q b.printed = printedFor q a.printed := fun q =>
    produce_call_printed (a := { a with timers := ts }) hr hb q
  intro q hq
  by_cases hpq : p = q
  · subst hpq
    have h3 := hseq p
    rw [if_pos rfl] at h3
    have h4 : printedFor p (a.published ++ [(p, k + 1)]) = upTo 1 (k + 1) := by
      rw [printedFor_snoc, if_pos rfl, hpub, upTo_succ]
    by_cases hvl : k + 1 < cfg.limit
    · rw [if_pos hvl] at h
      subst h
      exact ⟨by simpa [schedule, hpr] using hnp, k + 1, h3, h4, .inl ⟨by simp [schedule, scheduled_append, hbt, hs0], .inl hvl⟩⟩
    · rw [if_neg hvl] at h
      subst h
      exact ⟨by simpa [hpr] using hnp, k + 1, h3, h4, .inr ⟨by simp [hbt, hs0], by omega⟩⟩
  · have h3 := hseq q
    rw [if_neg hpq] at h3
    have h4 : printedFor q (a.published ++ [(p, k + 1)]) = printedFor q a.published := by
      rw [printedFor_snoc, if_neg hpq, List.append_nil]
    have h5 : scheduled q ts = scheduled q a.timers := by
      have := hc q
      rw [if_neg hpq] at this
      omega
    obtain ⟨hnq, j, hj, hjo⟩ := hall q hq
    by_cases hvl : k + 1 < cfg.limit
    · rw [if_pos hvl] at h
      subst h
      refine ⟨by simpa [schedule, hpr] using hnq, j, h3.trans hj, ?_⟩
      simpa [schedule, scheduled_append, hpq, h5, h4, hbt] using hjo
    · rw [if_neg hvl] at h
      subst h
      refine ⟨by simpa [hpr] using hnq, j, h3.trans hj, ?_⟩
      simpa [h5, h4, hbt] using hjo

/-- An event that brings nothing new for a stream leaves it as it is. -/
theorem Own.quiet {cfg : PubAppCfg} {a a' : FullApp} {op : Full.Op} {L : Nat} {p : Name} (hr : Full.Reach cfg.pc a.prod)
    (ho : outside op = true) (h : produce cfg a op = .ok a') (hn : numberOf a'.prod p ≤ numberOf a.prod p) (hown : Own L a p) :
    Own L a' p := by
  obtain ⟨h1, k, hk, h2, h3⟩ := hown
  obtain ⟨g1, g2⟩ := produce_outside_printed hr ho h p
  obtain ⟨e1, e2, e3, _⟩ := produce_eq h
  have heq : numberOf a'.prod p = numberOf a.prod p := Nat.le_antisymm hn g1.le
  obtain ⟨k', hk', hle⟩ := (Full.step_steps e1).mono_seq (outside_removes ho p) hk
  have hk'' : a'.prod.base.getSeqNo p = some k' := hk'
  have hkk : k' = k := by simpa [numberOf, hk, hk''] using heq
  refine ⟨?_, k, by rw [← hkk]; exact hk', by rw [e3]; exact h2, by rw [e2]; exact h3⟩
  rw [g2, heq, h1]
  simp [upTo]

end FullApp

section
variable {ι : Type}

/-- States of the producers after events that satisfy `Q`. -/
inductive GReach (cfg : ι → Cfg) (Q : ι → Full.Op → Prop) : (ι → Full) → Prop
  | init (g : ι → Full) : (∀ i, Full.init (cfg i) = .ok (g i)) → GReach cfg Q g
  | step {g g' : ι → Full} (i : ι) (op : Full.Op) : GReach cfg Q g → GStep cfg i op g g' → Q i op → GReach cfg Q g'

/-- Such states are the ends of runs. -/
theorem GReach.run {cfg : ι → Cfg} {Q : ι → Full.Op → Prop} {s : ι → Full} [Inhabited ι] (h : GReach cfg Q s) :
    ∃ g who what len, GRun cfg g who what len ∧ g len = s ∧ ∀ k < len, Q (who k) (what k) := by
  induction h with
  | init g h => exact ⟨fun _ => g, fun _ => default, fun _ => .tick 0, 0, ⟨h, by simp⟩, rfl, by simp⟩
  | @step g1 g' i op _ hst hq ih =>
    obtain ⟨g, who, what, len, h1, h2, h3⟩ := ih
    refine ⟨fun n => if n ≤ len then g n else g', fun n => if n < len then who n else i, fun n => if n < len then what n else op,
      len + 1, ⟨fun i => by simpa using h1.init i, fun n hn => ?_⟩, by simp, fun k hk => ?_⟩
    · by_cases h : n < len
      · simp only [if_pos h, if_pos h.le, if_pos (show n + 1 ≤ len by omega)]
        exact h1.step n h
      · have : n = len := by omega
        subst this
        simp only [lt_irrefl, if_false, le_refl, if_true, if_neg (show ¬ n + 1 ≤ n by omega)]
        rw [h2]
        exact hst
    · by_cases h : k < len
      · simp only [if_pos h]; exact h3 k h
      · simp only [if_neg h]; exact hq

/-- What the programs do to their producers: nothing is removed, and only own streams are published. -/
def OwnEvents (cfg : ι → PubAppCfg) (i : ι) (op : Full.Op) : Prop :=
  (∀ p, ¬ op.Removes p) ∧ ∀ p, op.Publishes p → p ∈ (cfg i).streams

variable {cfg : ι → PubAppCfg} {a : Nat → ι → FullApp} {who : Nat → ι} {what : Nat → FullApp.Op} {len : Nat}

open Classical in
/-- The loop of a constructor, at one node of the group. -/
theorem GReach.streams {g : ι → Full} (i : ι) (l : List Name) : ∀ {b b' : FullApp}, GReach (options cfg) (OwnEvents cfg) g → g i = b.prod →
    foldRes (FullApp.addStream (cfg i)) b l = .ok b' → GReach (options cfg) (OwnEvents cfg) (Function.update g i b'.prod) := by
  induction l generalizing g with
  | nil =>
    intro b b' hg hi h
    cases h
    rw [← hi, Function.update_eq_self]
    exact hg
  | cons p l ih =>
    intro b b' hg hi h
    simp only [foldRes] at h
    rw [Res.bind_eq_ok] at h
    obtain ⟨c, h1, h⟩ := h
    obtain ⟨d, h2, rfl⟩ := FullApp.addStream_eq h1
    have h3 := (FullApp.produce_eq h2).1
    have := ih (g := Function.update g i d.prod) (b := FullApp.schedule (cfg i) d p) (b' := b')
      (GReach.step i (.call (.addUserNode p)) hg ⟨by simp, by rw [hi, Function.update_self]; exact h3,
        fun j hj => Function.update_of_ne hj _ _⟩ ⟨fun q => by simp [Full.Op.Removes, Full.Call.Removes],
          fun q hq => by simp [Full.Op.Publishes, Full.Call.Publishes] at hq⟩)
      (by simp [FullApp.schedule]) h
    simpa using this

open Classical in
/-- The constructors run one after the other. -/
theorem Spec.ARun.started [Finite ι] (h : ARun cfg a who what len) : GReach (options cfg) (OwnEvents cfg) (producers (a 0)) := by
  have hs : ∀ i, ∃ s, Full.init (cfg i).pc = .ok s ∧
      foldRes (FullApp.addStream (cfg i)) ⟨s, [], 0, [], []⟩ (cfg i).streams = .ok (a 0 i) := by
    intro i
    have := h.init i
    unfold FullApp.init at this
    rwa [Res.bind_eq_ok] at this
  choose s h1 h2 using hs
  cases nonempty_fintype ι
  have key : ∀ l : List ι, l.Nodup →
      GReach (options cfg) (OwnEvents cfg) (fun i => if i ∈ l then (a 0 i).prod else s i) := by
    intro l
    induction l with
    | nil =>
      intro _
      have h0 : GReach (options cfg) (OwnEvents cfg) s := GReach.init s h1
      simpa using h0
    | cons i l ih =>
      intro hn
      have hi : i ∉ l := (List.nodup_cons.mp hn).1
      have := GReach.streams i (cfg i).streams (ih (List.nodup_cons.mp hn).2) (by simp [hi]) (h2 i)
      convert this using 1
      funext j
      by_cases hj : j = i
      · subst hj; simp
      · rw [Function.update_of_ne hj]; simp [hj]
  have := key Finset.univ.toList (Finset.nodup_toList _)
  simp only [Finset.mem_toList, Finset.mem_univ, if_true] at this
  exact this

theorem Spec.ARun.appReach (h : ARun cfg a who what len) {n : Nat} (hn : n ≤ len) (i : ι) : FullAppReach (cfg i) (a n i) := by
  induction n generalizing i with
  | zero => exact ⟨a 0 i, [], h.init i, rfl⟩
  | succ n ih =>
    have hs := h.step n (by omega)
    by_cases hi : i = who n
    · subst hi
      obtain ⟨a0, ops, h1, h2⟩ := ih (by omega) (who n)
      refine ⟨a0, ops ++ [what n], h1, ?_⟩
      unfold FullApp.run at h2 ⊢
      rw [foldRes_append, h2]
      simp [Res.ok_bind, foldRes, hs.step]
    · rw [hs.others i hi]
      exact ih (by omega) i

theorem FullApp.outside_publishes {op : Full.Op} (ho : FullApp.outside op = true) (p : Name) : ¬ op.Publishes p := by
  cases op <;> simp_all [FullApp.outside, Full.Op.Publishes]

/-- The producers of the programs after `n` events are the end of a run of the producers. -/
theorem Spec.ARun.greach [Finite ι] (ho : OwnStreams cfg) (h : ARun cfg a who what len) {n : Nat} (hn : n ≤ len) :
    GReach (options cfg) (OwnEvents cfg) (producers (a n)) := by
  induction n with
  | zero => exact h.started
  | succ n ih =>
    have ih := ih (by omega)
    have hs := h.step n (by omega)
    have hoth : ∀ j, j ≠ who n → producers (a (n + 1)) j = producers (a n) j := fun j hj => by simp [producers, hs.others j hj]
    have same : (a (n + 1) (who n)).prod = (a n (who n)).prod → GReach (options cfg) (OwnEvents cfg) (producers (a (n + 1))) := by
      intro he
      have : producers (a (n + 1)) = producers (a n) := by
        funext j
        by_cases hj : j = who n
        · subst hj; exact he
        · exact hoth j hj
      rw [this]; exact ih
    have hst := hs.step
    have hhon := hs.honest
    cases hop : what n with
    | prod op =>
      rw [hop] at hst hhon
      simp only [FullApp.step] at hst
      split at hst
      · rename_i hout
        exact GReach.step (who n) op ih ⟨fun buf acts e => hhon buf acts (by rw [e]), (FullApp.produce_eq hst).1, hoth⟩
          ⟨FullApp.outside_removes hout, fun p hp => absurd hp (FullApp.outside_publishes hout p)⟩
      · exact same (by rw [Res.ok.injEq] at hst; rw [← hst])
    | update =>
      rw [hop] at hst
      simp only [FullApp.step] at hst
      split at hst
      · exact same (by rw [Res.ok.injEq] at hst; rw [← hst])
      · rename_i p ts ht
        obtain ⟨b, h1, h2, _⟩ := FullApp.doUpdate_eq hst
        have hp : p ∈ (cfg (who n)).streams := (FullApp.reach_inv (ho.once _) (h.appReach (n := n) (by omega) (who n))).2 p
          (by have := takeDueName_count ht p; rw [if_pos rfl] at this; omega)
        refine GReach.step (who n) (.call (.publishName p none)) ih ⟨by simp, ?_, hoth⟩
          ⟨fun q => by simp [Full.Op.Removes, Full.Call.Removes], fun q hq => ?_⟩
        · simp only [producers, h2]
          exact (FullApp.produce_eq h1).1
        · simp only [Full.Op.Publishes, Full.Call.Publishes] at hq
          exact hq ▸ hp

/-- A number a producer of a proper run holds was published by the owner of the stream. -/
theorem GReach.owned {s : ι → Full} (hg : IsGroup (options cfg)) (hs : Sane (options cfg) s)
    (h : GReach (options cfg) (OwnEvents cfg) s) (i : ι) (p : Name) :
    numberOf (s i) p = 0 ∨ ∃ j, p ∈ (cfg j).streams ∧ (p, numberOf (s i) p) ∈ (s j).made := by
  have : Inhabited ι := ⟨i⟩
  obtain ⟨g, who, what, len, h1, rfl, h3⟩ := h.run
  by_cases h0 : numberOf (g len i) p = 0
  · exact .inl h0
  right
  cases hi : (g len i).base.getSeqNo p with
  | none => simp [numberOf, hi] at h0
  | some x =>
    have hx : x ≠ 0 := by simpa [numberOf, hi] using h0
    obtain ⟨j, hj⟩ := (c56_no_invention_partial hg h1 hs len (le_refl _) i).1 p x hi hx
    obtain ⟨k, hk, rfl, hpub⟩ := h1.publisher (le_refl _) hj
    exact ⟨who k, (h3 k hk).2 p (Full.Op.PublishesAs.publishes hpub), by simpa [numberOf, hi] using hj⟩

/-- A producer of a proper run holds at least what it has published. -/
theorem GReach.reached {s : ι → Full} (h : GReach (options cfg) (OwnEvents cfg) s) (j : ι) (p : Name) (x : Nat)
    (hj : (p, x) ∈ (s j).made) : x ≤ numberOf (s j) p := by
  have : Inhabited ι := ⟨j⟩
  obtain ⟨g, who, what, len, h1, rfl, h3⟩ := h.run
  have hown := (h1.span (Nat.zero_le len) (le_refl _) j).ownMade (by rintro p ⟨k', _, h2, h4⟩; exact (h3 k' h2).1 p h4)
    (by have := Full.init_made (h1.init j); simp only [Full.view, this]; simp) (p, x) hj
  obtain ⟨y, hy, hle⟩ := hown
  have hy' : (g len j).base.getSeqNo p = some y := hy
  simpa [numberOf, hy'] using hle

theorem Spec.ARun.appGrows (ho : OwnStreams cfg) (h : ARun cfg a who what len) {m n : Nat} (hmn : m ≤ n) (hn : n ≤ len) (i : ι) :
    (a m i).prod.made <+: (a n i).prod.made ∧ (a m i).prod.replies <+: (a n i).prod.replies := by
  induction n, hmn using Nat.le_induction with
  | base => exact ⟨List.prefix_refl _, List.prefix_refl _⟩
  | succ n hmn ih =>
    have ih := ih (by omega)
    have hs := h.step n (by omega)
    by_cases hi : i = who n
    · subst hi
      have hr := (FullApp.foreign (ho.once _) (h.appReach (n := n) (by omega) (who n))).1
      obtain ⟨op, hop⟩ | hop := FullApp.step_prod hs.step
      · have hm := Full.step_micro (Full.reach_inv hr) hop
        exact ⟨ih.1.trans hm.made, ih.2.trans hm.replies⟩
      · rw [hop]; exact ih
    · rw [hs.others i hi]
      exact ih

theorem Spec.ARun.saneAt (ho : OwnStreams cfg) (h : ARun cfg a who what len) (hs : Sane (options cfg) (producers (a len)))
    {n : Nat} (hn : n ≤ len) : Sane (options cfg) (producers (a n)) := by
  have hg := fun j => h.appGrows ho hn (le_refl len) j
  have hl : ∀ j, (producers (a n) j).replies.length ≤ (producers (a len) j).replies.length := fun j => (hg j).2.length_le
  exact ⟨⟨fun j e he => hs.names j e ((hg j).1.subset he),
    fun j e he => hs.buffers j e ((hg j).2.subset he),
    fun j a ha => hs.version_lt j a (lt_of_lt_of_le ha (hl j))⟩,
    fun i j a ha b hb => hs.versions i j a (lt_of_lt_of_le ha (hl i)) b (lt_of_lt_of_le hb (hl j))⟩

/-- Own streams, at any moment of a run. -/
theorem Spec.ARun.ownAt [Finite ι] (hg : IsGroup (options cfg)) (ho : OwnStreams cfg) (h : ARun cfg a who what len)
    (hs : Sane (options cfg) (producers (a len))) {n : Nat} (hn : n ≤ len) (i : ι) :
    ∀ p ∈ (cfg i).streams, FullApp.Own (cfg i).limit (a n i) p := by
  induction n with
  | zero => exact FullApp.init_own (ho.once i) (h.init i)
  | succ n ih =>
    have ih := ih (by omega)
    have hst := h.step n (by omega)
    by_cases hi : i = who n
    · subst hi
      have hreach := h.appReach (n := n) (by omega) (who n)
      have hf := FullApp.foreign (ho.once _) hreach
      have hstep := hst.step
      cases hop : what n with
      | prod op =>
        rw [hop] at hstep
        simp only [FullApp.step] at hstep
        split at hstep
        · rename_i hout
          intro p hp
          refine FullApp.Own.quiet hf.1 hout hstep ?_ (ih p hp)
          rcases (h.greach ho (n := n + 1) (by omega)).owned hg (h.saneAt ho hs hn) (who n) p with h0 | ⟨j, hj, hm⟩
          · have : numberOf (a (n + 1) (who n)).prod p = 0 := h0
            omega
          · have hji := ho.own _ _ p hj hp
            subst hji
            have hmade : (a (n + 1) (who n)).prod.made = (a n (who n)).prod.made :=
              (Full.step_micro (Full.reach_inv hf.1) (FullApp.produce_eq hstep).1).noPublish
                (fun p q hq => FullApp.outside_publishes hout p (Full.Op.PublishesAs.publishes hq))
            simp only [producers] at hm
            rw [hmade] at hm
            exact (h.greach ho (n := n) (by omega)).reached (who n) p _ hm
        · rw [Res.ok.injEq] at hstep
          rw [← hstep]; exact ih
      | update =>
        rw [hop] at hstep
        simp only [FullApp.step] at hstep
        split at hstep
        · rw [Res.ok.injEq] at hstep
          rw [← hstep]; exact ih
        · rename_i p ts ht
          have hp : p ∈ (cfg (who n)).streams := (FullApp.reach_inv (ho.once _) hreach).2 p
            (by have := takeDueName_count ht p; rw [if_pos rfl] at this; omega)
          exact FullApp.Own.update (Full.reach_inv hf.1) ht hp ih hstep
    · rw [hst.others i hi]
      exact ih

theorem tick_zero {cfg : Cfg} {s : Full} : Full.step cfg s (.tick 0) = .ok s := by
  simp only [Full.step]
  split
  · rename_i h
    simp only [Bool.and_eq_true, decide_eq_true_eq, Nat.le_zero] at h
    rw [Res.ok.injEq]
    cases s
    simp_all
  · rfl

/-- An event of the program, seen at its producer. -/
theorem FullApp.step_asProducer {c : PubAppCfg} {b b' : FullApp} {op : FullApp.Op} (h : FullApp.step c b op = .ok b') :
    Full.step c.pc b.prod (asProducer b op) = .ok b'.prod := by
  cases op with
  | prod op =>
    simp only [FullApp.step, asProducer] at h ⊢
    split at h
    · rename_i ho
      rw [if_pos ho]; exact (FullApp.produce_eq h).1
    · rename_i ho
      rw [Res.ok.injEq] at h; rw [if_neg ho, tick_zero, h]
  | update =>
    simp only [FullApp.step, asProducer] at h ⊢
    split at h
    · rename_i ho
      rw [Res.ok.injEq] at h; simp only [ho]; rw [tick_zero, h]
    · rename_i p ts ho
      obtain ⟨d, h1, h2, _⟩ := FullApp.doUpdate_eq h
      simp only [ho]
      rw [h2]; exact (FullApp.produce_eq h1).1

theorem FullApp.asProducer_proper {c : PubAppCfg} {b : FullApp} {op : FullApp.Op} (hd : FullApp.OnlyStreams c b) :
    (∀ p, ¬ (asProducer b op).Removes p) ∧ ∀ p, (asProducer b op).Publishes p → p ∈ c.streams ∧ b.timers ≠ [] := by
  cases op with
  | prod op =>
    simp only [asProducer]
    split
    · rename_i hout
      exact ⟨FullApp.outside_removes hout, fun p hp => absurd hp (FullApp.outside_publishes hout p)⟩
    · exact ⟨fun p => by simp [Full.Op.Removes], fun p => by simp [Full.Op.Publishes]⟩
  | update =>
    simp only [asProducer]
    split
    · exact ⟨fun p => by simp [Full.Op.Removes], fun p => by simp [Full.Op.Publishes]⟩
    · rename_i p ts ht
      refine ⟨fun p => by simp [Full.Op.Removes, Full.Call.Removes], fun q hq => ?_⟩
      simp only [Full.Op.Publishes, Full.Call.Publishes] at hq
      subst hq
      refine ⟨hd p (by have := takeDueName_count ht p; rw [if_pos rfl] at this; omega), ?_⟩
      rintro he
      rw [he] at ht
      cases ht

/-- Nothing more is scheduled once nothing is. -/
theorem Spec.ARun.idle (h : ARun cfg a who what len) {t n : Nat} (ht : t ≤ n) (hn : n ≤ len) {i : ι} (h0 : (a t i).timers = []) :
    (a n i).timers = [] := by
  induction n, ht using Nat.le_induction with
  | base => exact h0
  | succ n hmn ih =>
    have ih := ih (by omega)
    have hs := h.step n (by omega)
    by_cases hi : i = who n
    · subst hi
      have hst := hs.step
      cases hop : what n with
      | prod op =>
        rw [hop] at hst
        simp only [FullApp.step] at hst
        split at hst
        · rw [(FullApp.produce_eq hst).2.1, ih]
        · rw [Res.ok.injEq] at hst; rw [← hst, ih]
      | update =>
        rw [hop] at hst
        simp only [FullApp.step, ih, takeDueName] at hst
        rw [Res.ok.injEq] at hst; rw [← hst, ih]
    · rw [hs.others i hi, ih]

/-- A run of the programs is, after the constructors, a run of the producers, event for event. -/
theorem Spec.ARun.asGroup [Finite ι] [Inhabited ι] (ho : OwnStreams cfg) (h : ARun cfg a who what len) :
    ∃ g who' what' m, GRun (options cfg) g who' what' (m + len) ∧ (∀ n ≤ len, g (m + n) = producers (a n)) ∧
      (∀ n < len, who' (m + n) = who n ∧ what' (m + n) = producerEvent a who what n) ∧ ∀ k < m + len, OwnEvents cfg (who' k) (what' k) := by
  obtain ⟨g0, w0, o0, m, h1, h2, h3⟩ := h.started.run
  have hev : ∀ n < len, GStep (options cfg) (who n) (producerEvent a who what n) (producers (a n)) (producers (a (n + 1))) := by
    intro n hn
    have hs := h.step n hn
    refine ⟨fun buf acts he => ?_, FullApp.step_asProducer hs.step, fun j hj => by simp [producers, hs.others j hj]⟩
    refine hs.honest buf acts ?_
    unfold producerEvent at he
    cases hop : what n with
    | prod op =>
      rw [hop] at he
      simp only [asProducer] at he
      split at he
      · rw [he]
      · cases he
    | update =>
      rw [hop] at he
      simp only [asProducer] at he
      split at he <;> cases he
  refine ⟨fun k => if k ≤ m then g0 k else producers (a (k - m)), fun k => if k < m then w0 k else who (k - m),
    fun k => if k < m then o0 k else producerEvent a who what (k - m), m, ⟨fun i => by simpa using h1.init i, fun k hk => ?_⟩,
    fun n hn => ?_, fun n hn => ?_, fun k hk => ?_⟩
  · by_cases hkm : k < m
    · simp only [if_pos hkm, if_pos hkm.le, if_pos (show k + 1 ≤ m by omega)]
      exact h1.step k hkm
    · have hstep := hev (k - m) (by omega)
      simp only [if_neg hkm, if_neg (show ¬ k + 1 ≤ m by omega)]
      rw [show k + 1 - m = k - m + 1 by omega]
      by_cases hkm' : k ≤ m
      · have : k = m := by omega
        subst this
        simp only [le_refl, if_true, h2]
        simpa using hstep
      · simp only [if_neg hkm']
        exact hstep
  · by_cases hn0 : n = 0
    · subst hn0; simp [h2]
    · simp [hn0]
  · simp
  · by_cases hkm : k < m
    · simp only [if_pos hkm]; exact h3 k hkm
    · simp only [if_neg hkm]
      have := FullApp.asProducer_proper (op := what (k - m)) (FullApp.reach_inv (ho.once _) (h.appReach (n := k - m) (by omega) (who (k - m)))).2
      exact ⟨this.1, fun p hp => (this.2 p hp).1⟩

theorem Spec.Exchange.shift {ok : Full → Name → Prop} {c : ι → Cfg} {g g' : Nat → ι → Full} {w w' : Nat → ι} {o o' : Nat → Full.Op}
    {j i : ι} {x b m len : Nat} (hg : ∀ n ≤ len, g' (m + n) = g n) (hw : ∀ n < len, w' (m + n) = w n ∧ o' (m + n) = o n)
    (hb : b ≤ len) (h : Exchange ok c g w o j i x b) : Exchange ok c g' w' o' j i (m + x) (m + b) := by
  have asks : ∀ {int}, x < len → Asks g w o j i x int → Asks g' w' o' j i (m + x) int := by
    intro int hx h
    exact ⟨(hw x hx).1.trans h.who, (hw x hx).2.trans h.what, by rw [hg x hx.le]; exact h.sent⟩
  cases h with
  | quiet int h1 h2 h3 h4 =>
    refine .quiet int (asks (by omega) h1) (by rw [hg x (by omega)]; exact h2) ?_ (by rw [hg x (by omega)]; exact h4)
    rw [show m + x + 1 = m + (x + 1) by omega, hg x (by omega), hg (x + 1) hb]
    exact h3
  | answered int d b' h1 h2 h3 h4 h5 =>
    refine .answered int d (m + b') (asks (by omega) h1) (by rw [hg x (by omega)]; exact h2) ?_ (by omega)
      ⟨(hw b' (by omega)).1.trans h5.who, by rw [hg b' (by omega)]; exact h5.active, ?_⟩
    · rw [show m + x + 1 = m + (x + 1) by omega, hg x (by omega), hg (x + 1) (by omega)]
      exact h3
    · rw [hg b' (by omega), (hw b' (by omega)).2]
      exact h5.fetch

theorem Spec.Exchange.later {ok : Full → Name → Prop} {c : ι → Cfg} {g : Nat → ι → Full} {w : Nat → ι} {o : Nat → Full.Op}
    {j i : ι} {x b : Nat} (h : Exchange ok c g w o j i x b) : x < b := by
  cases h <;> omega

theorem Spec.Path.shift {ok : Full → Name → Prop} {c : ι → Cfg} {g g' : Nat → ι → Full} {w w' : Nat → ι} {o o' : Nat → Full.Op}
    {j : ι} {t m len : Nat} (hg : ∀ n ≤ len, g' (m + n) = g n) (hw : ∀ n < len, w' (m + n) = w n ∧ o' (m + n) = o n)
    {i : ι} {u : Nat} (h : Path ok c g w o j t i u) : u ≤ len → Path ok c g' w' o' j (m + t) i (m + u) := by
  induction h with
  | same u hu => exact fun _ => .same _ (by omega)
  | next k i x b u _ hx hb ih =>
    intro hu
    have := hx.later
    exact .next k i (m + x) (m + b) (m + u) (ih (by omega)) (hx.shift hg hw (by omega)) (by omega)

end
end PSync
