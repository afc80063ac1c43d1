import Verif.Proofs.PartReply
import Verif.Proofs.Group
/-!
The events of a PartialProducer as sequences of small actions (`Micro`).
-/
namespace PSync
open Spec

namespace Part

def view (s : Part) : View := ⟨s.base, s.pub, s.log, s.replies, s.made, s.now⟩

/-- The buffers that may be published by a producer with the table `b`: the list of all prefixes for a hello
Interest; for a sync Interest whose name satisfies `ask`, the names found by comparing the IBFs; for an
Interest parked as `park` says, the prefix published now (`what`) or nothing. -/
inductive PartData (cfg : Cfg) (ask : Name → Prop) (park : Name → Bloom → Table → Prop) (what : Name → Prop) (b : Base) :
    Name → Bytes → Prop
  | hello (c : Component) : b.iblt.toComponent cfg.ibltCodec = .ok c →
      PartData cfg ask park what b (cfg.syncPrefix ++ [HELLO, c]) (encodeNames (helloContent b))
  | asked (n key : Name) (bf : Bloom) (iblt : Table) (diff : IBLTDiff) (content : List Name) (c : Component) :
      ask n → SyncFields cfg key bf iblt → AsksFor n key → Table.diff cfg.fuel b.iblt iblt = .ok diff →
      diff.canDecode = true → collect b bf diff.positive [] = .ok content →
      b.iblt.toComponent cfg.ibltCodec = .ok c →
      PartData cfg ask park what b (key ++ [c]) (encodeNames content)
  | parked (p : Name) (x : Nat) (key : Name) (bf : Bloom) (iblt : Table) (diff : IBLTDiff) (sub : Bool) (c : Component) :
      what p → park key bf iblt → b.getSeqNo p = some x → Table.diff cfg.fuel b.iblt iblt = .ok diff →
      diff.canDecode = true → bf.contains p = .ok sub → b.iblt.toComponent cfg.ibltCodec = .ok c →
      PartData cfg ask park what b (key ++ [c]) (encodeNames (if sub then [Name.appendNumber p x] else []))

theorem PartData.mono {cfg : Cfg} {ask ask' : Name → Prop} {park park' : Name → Bloom → Table → Prop}
    {what what' : Name → Prop} (ha : ∀ n, ask n → ask' n) (hp : ∀ k bf t, park k bf t → park' k bf t)
    (hw : ∀ p, what p → what' p) {b : Base} {n : Name} {buf : Bytes} (h : PartData cfg ask park what b n buf) :
    PartData cfg ask' park' what' b n buf := by
  cases h with
  | hello c hc => exact .hello c hc
  | asked n key bf iblt diff content c h1 h2 h3 h4 h5 h6 h7 =>
    exact .asked n key bf iblt diff content c (ha _ h1) h2 h3 h4 h5 h6 h7
  | parked p x key bf iblt diff sub c h1 h2 h3 h4 h5 h6 h7 =>
    exact .parked p x key bf iblt diff sub c (hw _ h1) (hp _ _ _ h2) h3 h4 h5 h6 h7

/-- What a PartialProducer may do, with the buffers `Q`. -/
def rules (cfg : Cfg) (Q : Base → Name → Bytes → Prop) (remove : Name → Prop) (pub : Name → Nat → Prop) : Rules where
  limit := cfg.imsLimit
  version := cfg.version
  interest := fun _ _ _ => False
  remove := remove
  publish := pub
  data := fun b _ n buf => Q b n buf
  nack := fun b d => ∃ key bf iblt, SyncFields cfg key bf iblt ∧ nackData cfg b key = .ok d
  merge := fun _ => False

theorem rules_le {cfg : Cfg} {Q Q' : Base → Name → Bytes → Prop} {R R' : Name → Prop} {L L' : Name → Nat → Prop}
    (hQ : ∀ b n x, Q b n x → Q' b n x) (hR : ∀ p, R p → R' p) (hL : ∀ p q, L p q → L' p q) :
    (rules cfg Q R L).Le (rules cfg Q' R' L') :=
  ⟨rfl, rfl, fun _ _ _ h => h, hR, hL, fun b _ n x h => hQ b n x h, fun _ _ h => h, fun _ h => h⟩

/-- The buffers published on the event `op` in the state `s`. -/
def opData (cfg : Cfg) (s : Part) (op : Op) : Base → Name → Bytes → Prop :=
  PartData cfg (fun n => ∃ i, op = .recvInterest i ∧ i.name = n)
    (fun k bf t => ∃ e, s.pending.find k = some e ∧ e.bf = bf ∧ e.iblt = t) (fun p => ∃ seq, op = .publishName p seq)

/-- `op` publishes `p` as number `q`. -/
def Op.PublishesAs (p : Name) (q : Nat) : Op → Prop
  | .publishName p' seq => p' = p ∧ ∀ x, seq = some x → q = x % U64
  | _ => False

/-- What may happen on the event `op` in the state `s`, when replies are made with the table `b1`. -/
def opRules (cfg : Cfg) (s : Part) (op : Op) (b1 : Base) : Rules :=
  rules cfg (fun b n buf => b = b1 ∧ opData cfg s op b n buf) (fun p => op.Removes p) (fun p q => op.PublishesAs p q)

theorem publishName_micro {cfg : Cfg} {s s' : Part} (hs : Parked cfg s) {p : Name} {seq : Option Nat}
    (h : publishName cfg s p seq = .ok s') : Micros (opRules cfg s (.publishName p seq) s'.base) s.view s'.view := by
  rcases publishName_ok h with ⟨_, rfl⟩ | ⟨cur, b, h1, h2, h3, h4⟩
  · exact Micros.refl
  rw [h4]
  have hx := Base.find_updateSeqNo h2 p
  rw [h1, if_pos rfl] at hx
  have m1 : Micro (opRules cfg s (.publishName p seq) b) s.view ⟨b, s.pub, s.log, s.replies, s.made ++ [(p, Full.newSeq seq cur)], s.now⟩ :=
    .publish p _ b ⟨rfl, fun x hx => by subst hx; rfl⟩ (Full.newSeq_lt _ _) (by simp only [view]; rw [h1]; rfl) h2
  refine (Micros.one m1).trans ?_
  have := foldRes_rel (f := satisfyOne cfg p) (Q := fun a a' : Part => a.base = b → a'.base = b ∧
      Micros (opRules cfg s (.publishName p seq) b) a.view a'.view)
    (fun _ h => ⟨h, Micros.refl⟩)
    (fun _ _ _ h1 h2 hb => ⟨(h2 (h1 hb).1).1, (h1 hb).2.trans (h2 (h1 hb).1).2⟩) s.pending ?_ h3 rfl
  · exact this.2
  · rintro a ⟨k, e⟩ a' he ha hb
    have hidx : a.base.index p = (_, a.base) := Full.index_of_find (hb ▸ hx)
    have hf := NMap.find_of_mem hs.sorted he
    obtain ⟨diff, hd, ⟨hc, rfl⟩ | ⟨hc, sub, hsub, ⟨rfl, c, r, h3, h4, rfl⟩ | ⟨rfl, hth, c, r, h3, h4, rfl⟩ | ⟨rfl, hth, rfl⟩⟩⟩ := satisfyOne_ok ha
    · exact ⟨hb, Micros.refl⟩
    · simp only [hidx] at h3 h4 ⊢
      refine ⟨hb, Micros.one (.data a.now k (k ++ [c]) _ cfg.freshness r ?_ h4 rfl)⟩
      exact ⟨hb, .parked p _ k e.bf e.iblt diff true c ⟨seq, rfl⟩ ⟨e, hf, rfl, rfl⟩ (by rw [← hb] at hx; exact hx) hd hc hsub h3⟩
    · refine ⟨hb, Micros.one (.data a.now k (k ++ [c]) _ cfg.freshness r ?_ h4 rfl)⟩
      exact ⟨hb, .parked p _ k e.bf e.iblt diff false c ⟨seq, rfl⟩ ⟨e, hf, rfl, rfl⟩ (hb ▸ hx) hd hc hsub h3⟩
    · exact ⟨hb, Micros.refl⟩

theorem onHelloInterest_micro {cfg : Cfg} {s s' : Part} {i : Interest}
    (h : onHelloInterest cfg s i = .ok s') : Micros (opRules cfg s (.recvInterest i) s'.base) s.view s'.view := by
  rw [onHelloInterest_base h]
  unfold onHelloInterest at h
  split at h
  · rename_i d hd
    cases h
    exact Micros.one (.stored i.name d hd)
  · simp only [Res.bind_eq_ok] at h
    obtain ⟨l, _, c4, _, h⟩ := h
    split at h
    · cases h; exact Micros.refl
    · simp only [Res.bind_eq_ok] at h
      obtain ⟨c, hc, h⟩ := h
      obtain ⟨r, hr, rfl⟩ := publish_ok h
      exact Micros.one (.data s.now _ _ _ _ r ⟨rfl, .hello c hc⟩ hr rfl)

theorem onSyncInterest_micro {cfg : Cfg} {s s' : Part} {i : Interest} (hp : (cfg.syncPrefix ++ [SYNC]) <+: i.name)
    (h : onSyncInterest cfg s i = .ok s') : Micros (opRules cfg s (.recvInterest i) s'.base) s.view s'.view := by
  rw [onSyncInterest_base h]
  rcases onSyncInterest_cases' hp h with ⟨d, hd, rfl⟩ | ⟨_, rfl | ⟨key, bf, iblt, hf, hk, h1⟩⟩
  · exact Micros.one (.stored i.name d hd)
  · exact Micros.refl
  · obtain ⟨diff, hd, ⟨_, d, h2, rfl⟩ | ⟨hc, content, hcol, ⟨_, c, r, h2, h3, rfl⟩ | ⟨_, _, rfl⟩⟩⟩ := onSyncParsed_ok h1
    · exact Micros.one (.nack d ⟨key, bf, iblt, hf, h2⟩)
    · exact Micros.one (.data s.now _ _ _ _ r ⟨rfl, .asked i.name key bf iblt diff content c ⟨i, rfl, rfl⟩ hf hk hd hc hcol h2⟩ h3 rfl)
    · exact Micros.refl

theorem step_micro {cfg : Cfg} {s s' : Part} (hs : Parked cfg s) {op : Op} (h : step cfg s op = .ok s') :
    Micros (opRules cfg s op s'.base) s.view s'.view := by
  cases op with
  | addUserNode p => simp only [step, Res.ok.injEq] at h; subst h; exact Micros.one (.add p)
  | removeUserNode p =>
    simp only [step, Res.bind_eq_ok, Res.ok.injEq] at h
    obtain ⟨b, h1, rfl⟩ := h
    exact Micros.one (.remove p b rfl h1)
  | publishName p q => exact publishName_micro hs h
  | recvInterest i =>
    simp only [step] at h
    split at h
    · exact onHelloInterest_micro h
    · split at h
      · rename_i hp
        exact onSyncInterest_micro (List.isPrefixOf_iff_prefix.mp hp) h
      · cases h; exact Micros.refl
  | tick t =>
    simp only [step, Res.ok.injEq] at h
    subst h
    split
    · rename_i hc
      simp only [Bool.and_eq_true, decide_eq_true_eq] at hc
      exact Micros.one (.tick t hc.1)
    · exact Micros.refl
  | expire n =>
    simp only [step] at h
    split at h
    · split at h
      · split at h <;> (cases h; exact Micros.refl)
      · cases h; exact Micros.refl
    · cases h; exact Micros.refl
  | fireStore => simp only [step, Res.ok.injEq] at h; subst h; exact Micros.one (.fire s.now rfl)

theorem opData_any {cfg : Cfg} {s : Part} (hs : Parked cfg s) {op : Op} {b : Base} {n : Name} {buf : Bytes}
    (h : opData cfg s op b n buf) : PartData cfg (fun _ => True) (SyncFields cfg) (fun _ => True) b n buf :=
  h.mono (fun _ _ => trivial) (fun k _ _ ⟨e, he, h1, h2⟩ => h1 ▸ h2 ▸ hs.fields k e he) (fun _ _ => trivial)

/-- The buffers a PartialProducer may publish at any time. -/
def anyData (cfg : Cfg) : Base → Name → Bytes → Prop :=
  PartData cfg (fun _ => True) (SyncFields cfg) (fun _ => True)

def runRules (cfg : Cfg) (ops : List Op) : Rules :=
  rules cfg (anyData cfg) (fun p => ∃ op ∈ ops, op.Removes p) (fun p q => ∃ op ∈ ops, op.PublishesAs p q)

theorem run_micro {cfg : Cfg} {s s' : Part} (hs : Parked cfg s) {ops : List Op} (h : run cfg s ops = .ok s') :
    Micros (runRules cfg ops) s.view s'.view := by
  have := foldRes_rel (Q := fun a b : Part => Parked cfg a → Parked cfg b ∧ Micros (runRules cfg ops) a.view b.view)
    (fun _ hi => ⟨hi, Micros.refl⟩)
    (fun _ _ _ h1 h2 hi => ⟨(h2 (h1 hi).1).1, (h1 hi).2.trans (h2 (h1 hi).1).2⟩) ops
    (fun a o b ho hx hi => ⟨step_parked hi hx, (step_micro hi hx).mono
      (rules_le (fun _ _ _ h => h.2.mono (fun _ _ => trivial)
          (fun k bf t ⟨e, he, h1, h2⟩ => h1 ▸ h2 ▸ hi.fields k e he) (fun _ _ => trivial))
        (fun _ h => ⟨o, ho, h⟩) (fun _ _ h => ⟨o, ho, h⟩))⟩) h
  exact (this hs).2

theorem reach_micro {cfg : Cfg} {s : Part} (h : Reach cfg s) :
    Micros (rules cfg (anyData cfg) (fun _ => True) (fun _ _ => True)) ⟨Base.new cfg, SegPub.empty, [], [], [], 0⟩ s.view := by
  obtain ⟨ops, h⟩ := h
  exact (run_micro ⟨NMap.sorted_nil, fun n e h => by cases h⟩ h).mono
    (rules_le (fun _ _ _ h => h) (fun _ _ => trivial) (fun _ _ _ => trivial))

theorem reach_log {cfg : Cfg} {s : Part} (h : Reach cfg s) {o : Out} (ho : o ∈ s.log) :
    OutOk (rules cfg (anyData cfg) (fun _ => True) (fun _ _ => True)) (Base.new cfg) s.base o := by
  obtain ⟨ext, h3, h4⟩ := (reach_micro h).traced.log
  simp only [view, List.nil_append] at h3
  rw [h3] at ho
  rcases h4 o ho with ⟨d, hd, _⟩ | h
  · simp [SegPub.empty] at hd
  · exact h

theorem reach_recorded {cfg : Cfg} {s : Part} (h : Reach cfg s) {d : Data} (hd : Out.data d ∈ s.log) :
    (∃ b key bf iblt, SyncFields cfg key bf iblt ∧ nackData cfg b key = .ok d) ∨
    ∃ (k : Nat) (e : Name × Bytes × Nat), s.replies[k]? = some e ∧
      d ∈ segmentData (e.1.appendVersion (cfg.version k)) e.2.1 e.2.2 := by
  have := ((reach_micro h).recorded ⟨by simp [SegPub.empty], by simp⟩).log d hd
  exact this

/-- Every recorded reply was made in a state of the run. -/
theorem run_replies {cfg : Cfg} {s : Part} : ∀ {ops : List Op} {s0 : Part}, Parked cfg s0 → run cfg s0 ops = .ok s →
    ∀ e ∈ s.replies, e ∈ s0.replies ∨ ∃ pre post r, ops = pre ++ post ∧ run cfg s0 pre = .ok r ∧ run cfg r post = .ok s ∧
      anyData cfg r.base e.1 e.2.1 := by
  intro ops
  induction ops with
  | nil => intro s0 _ h e he; simp only [run, foldRes, Res.ok.injEq] at h; subst h; exact .inl he
  | cons op ops ih =>
    intro s0 hs h e he
    simp only [run, foldRes, Res.bind_eq_ok] at h
    obtain ⟨s1, h1, h2⟩ := h
    have hrun : run cfg s0 [op] = .ok s1 := by simp [run, foldRes, h1, Res.bind]
    rcases ih (step_parked hs h1) h2 e he with h3 | ⟨pre, post, r, rfl, h4, h5, h6⟩
    · rcases (step_micro hs h1).newReplies h3 with h7 | ⟨b, m, h7, h8⟩
      · exact .inl h7
      · exact .inr ⟨[op], ops, s1, rfl, hrun, h2, h7 ▸ opData_any hs h8⟩
    · refine .inr ⟨op :: pre, post, r, rfl, ?_, h5, h6⟩
      simp only [run, foldRes, h1, Res.ok_bind]
      exact h4

end Part
end PSync
