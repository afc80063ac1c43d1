import Verif.Proofs.Merge
import Verif.Props.Iblt
/-!
Interests built by honest nodes, and runs without calls of the application.
-/
namespace PSync
open Spec

namespace Base

/-- The IBF has the right size and its counts fit. -/
def Ranged (e : Nat) (b : Base) : Prop := b.iblt.length = 3 * buckets e ∧ ∀ c ∈ b.iblt, inI32 c.count = true

theorem ranged_new (cfg : Cfg) : Ranged cfg.expected (Base.new cfg) := by
  unfold Ranged Base.new Table.new
  rw [nCells_eq]
  refine ⟨by simp, ?_⟩
  intro c hc
  rw [List.eq_of_mem_replicate hc]
  decide

theorem ranged_update {e : Nat} (he : 0 < e) {t t' : Table} {pm : Int} {k : U32} (h : ibltUpdate t pm k = .ok t')
    (ht : t.length = 3 * buckets e ∧ ∀ c ∈ t, inI32 c.count = true) :
    t'.length = 3 * buckets e ∧ ∀ c ∈ t', inI32 c.count = true := by
  refine ⟨?_, ibltUpdate_inI32 he ht.1 ht.2 h⟩
  rw [(ibltUpdate_ok (buckets_pos he) ht.1 h).1, addKey_length]
  exact ht.1

theorem ranged_eraseName {e : Nat} (he : 0 < e) {b b' : Base} {n : Name} (hb : b.Ranged e)
    (h : b.eraseName n = .ok b') : b'.Ranged e := by
  obtain ⟨_, _, _, _, ⟨x, t, _, ht, rfl⟩ | ⟨_, hi⟩⟩ := eraseName_ok h
  · exact ranged_update he ht hb
  · unfold Ranged; rw [hi]; exact hb

theorem Step.ranged {R : Name → Prop} {e : Nat} (he : 0 < e) {b b' : Base} (h : Step R b b') (hs : b.Ranged e) :
    b'.Ranged e := by
  cases h with
  | add p =>
    unfold Ranged addUserNode
    cases b.prefixes.find p <;> exact hs
  | remove p _ h =>
    unfold removeUserNode at h
    cases hp : b.prefixes.find p with
    | none => simp only [hp, Res.ok.injEq] at h; subst h; exact hs
    | some s =>
      simp only [hp] at h
      exact ranged_eraseName he (by exact hs) h
  | update p q hq h =>
    rcases updateSeqNo_ok h with ⟨rfl, _⟩ | ⟨s, b1, t, hp, hlt, h1, _, _, _, h2, rfl⟩
    · exact hs
    · have : b1.Ranged e := by
        split at h1
        · exact ranged_eraseName he hs h1
        · cases h1; exact hs
      exact ranged_update he h2 this

theorem Steps.ranged {R : Name → Prop} {e : Nat} (he : 0 < e) {b b' : Base} (h : Steps R b b') (hs : b.Ranged e) :
    b'.Ranged e := by
  induction h with
  | refl => exact hs
  | tail _ h ih => exact h.ranged he ih

end Base

/-- An Interest that carries the IBF of `b` is read back as that IBF. -/
theorem honest_name {cfg : Cfg} {b : Base} (hr : b.Ranged cfg.expected) (hl : cfg.ibltCodec.Lossless) (hn : b.numOwn < U64) :
    ∃ c, Full.syncName cfg b = .ok (cfg.syncPrefix ++ [c, ⟨8, nniBytes b.numOwn⟩]) ∧
      Table.initialize cfg.ibltCodec cfg.expected c = .ok b.iblt ∧
      Component.toNumber ⟨8, nniBytes b.numOwn⟩ = .ok b.numOwn := by
  obtain ⟨c, h1, h2⟩ := c02_round_trip cfg.ibltCodec hl cfg.expected b.iblt (by rw [nCells_eq]; exact hr.1) hr.2
  refine ⟨c, ?_, h2, ?_⟩
  · unfold Full.syncName
    rw [h1, Res.ok_bind, Name.appendNumber, List.append_assoc]
    rfl
  · unfold Component.toNumber
    rw [readNni_nniBytes _ hn]
    rfl

theorem getFromEnd_two (l : Name) (a b : Component) : (l ++ [a, b]).getFromEnd 2 = .ok a := by
  unfold Name.getFromEnd
  have h0 : ((l ++ [a, b]).length : Int) - (2 : Nat) = l.length := by simp
  have h1 : ¬ ((l.length : Int) < 0) := by omega
  simp only [h0, if_neg h1]
  rw [if_pos (by omega)]
  simp

theorem getFromEnd_last (l : Name) (a b : Component) : (l ++ [a, b]).getFromEnd 1 = .ok b := by
  rw [getFromEnd_one (by simp)]
  simp

namespace Full

/-- How an Interest of an honest node is taken, if it is not answered from the store. -/
theorem onSyncInterest_honest {cfg : Cfg} {s : Full} {b : Base} (hr : b.Ranged cfg.expected)
    (hl : cfg.ibltCodec.Lossless) (hn : b.numOwn < U64) {i : Interest} {t : Bool} (hi : syncName cfg b = .ok i.name)
    (hst : s.pub.replyFromStore i.name = none) :
    onSyncInterest cfg s i t = Res.bind (Table.diff cfg.fuel s.base.iblt b.iblt) fun diff =>
      if !diff.canDecode then onUndecodable cfg s i t b.numOwn diff
      else onDecoded cfg s i t b.iblt diff := by
  obtain ⟨c, h1, h2, h3⟩ := honest_name hr hl hn
  rw [hi, Res.ok.injEq] at h1
  have hd : i.name.drop cfg.syncPrefix.length = [c, ⟨8, nniBytes b.numOwn⟩] := by
    rw [h1, List.drop_left]
  have e2 : i.name.getFromEnd 2 = .ok c := by rw [h1, getFromEnd_two]
  have e1 : i.name.getFromEnd 1 = .ok ⟨8, nniBytes b.numOwn⟩ := by rw [h1, getFromEnd_last]
  unfold onSyncInterest
  simp only [hst, hd, e2, e1, h3, Res.ok_bind, h2]
  rw [if_neg (by simp), if_neg (by simp)]

/-- Events in which the application makes no call. -/
def Op.Quiet : Op → Prop
  | .call _ => False
  | .complete _ acts => acts = []
  | _ => True

/-- Without calls of the application the table changes only through sync Data. -/
theorem step_best {cfg : Cfg} {s s' : Full} (hs : s.base.Inv) {op : Op} (hq : op.Quiet) (h : step cfg s op = .ok s') :
    ∃ ps, ((receivedNow s op).flatMap (namesIn cfg)).map announced = ps.map some ∧
      ∀ p, s'.base.prefixes.find p = best p (s.base.prefixes.find p) ps := by
  have same : s'.base = s.base → receivedNow s op = [] →
      ∃ ps, ((receivedNow s op).flatMap (namesIn cfg)).map announced = ps.map some ∧
      ∀ p, s'.base.prefixes.find p = best p (s.base.prefixes.find p) ps := by
    intro h1 h2
    rw [h1, h2]
    exact ⟨[], rfl, fun p => rfl⟩
  cases op with
  | call c => exact hq.elim
  | recvInterest i =>
    apply same _ rfl
    simp only [step] at h
    split at h
    · exact onSyncInterest_base hs h
    · cases h; rfl
  | segment f =>
    apply same _ rfl
    simp only [step] at h
    split at h
    · cases h; split <;> rfl
    · cases h; rfl
  | complete buf acts =>
    simp only [Op.Quiet] at hq
    subst hq
    simp only [step] at h
    cases hf : s.fetcher with
    | none =>
      rw [hf] at h
      cases h
      exact same rfl (by simp [receivedNow, hf])
    | some f =>
      simp only [hf] at h
      split at h
      · rename_i ha
        have hrec : receivedNow s (.complete buf []) = [buf] := by simp [receivedNow, hf, ha]
        rw [hrec, List.flatMap_singleton]
        exact onSyncData_best (s := s.stopFetcher) hs h
      · rename_i ha
        cases h
        exact same rfl (by simp [receivedNow, hf, ha])
  | error t =>
    apply same _ rfl
    simp only [step] at h
    split at h
    · split at h
      · cases h; split <;> rfl
      · cases h; rfl
    · cases h; rfl
  | tick t =>
    apply same _ rfl
    simp only [step, Res.ok.injEq] at h
    subst h
    split <;> rfl
  | fireSync =>
    apply same _ rfl
    simp only [step] at h
    split at h
    · split at h
      · split at h
        · exact (sendSyncInterest_core h).base
        · exact (sendSyncInterest_core h).base
      · cases h; rfl
    · cases h; rfl
  | fireDelay =>
    apply same _ rfl
    simp only [step] at h
    split at h
    · split at h
      · simp only [Res.bind_eq_ok, Res.ok.injEq] at h
        obtain ⟨s1, h1, rfl⟩ := h
        rw [scheduleProcess_base]
        exact processWaiting_base (s := { s with delayTimer := none }) hs h1
      · cases h; rfl
    · cases h; rfl
  | expire n =>
    apply same _ rfl
    simp only [step] at h
    split at h
    · cases h; split <;> rfl
    · cases h; rfl
  | fireStore =>
    apply same _ rfl
    simp only [step, Res.ok.injEq] at h
    subst h
    rfl

theorem received_cons {cfg : Cfg} {s s' : Full} {op : Op} {ops : List Op} (h : step cfg s op = .ok s') :
    received cfg s (op :: ops) = receivedNow s op ++ received cfg s' ops := by
  rw [received]
  simp only [h]

theorem run_best {cfg : Cfg} {s' : Full} {ops : List Op} (hq : ∀ op ∈ ops, op.Quiet) : ∀ {s : Full}, s.base.Inv →
    run cfg s ops = .ok s' →
    ∃ ps, ((received cfg s ops).flatMap (namesIn cfg)).map announced = ps.map some ∧
      ∀ p, s'.base.prefixes.find p = best p (s.base.prefixes.find p) ps := by
  induction ops with
  | nil =>
    intro s hs h
    simp only [run, foldRes, Res.ok.injEq] at h
    subst h
    exact ⟨[], rfl, fun p => rfl⟩
  | cons op ops ih =>
    intro s hs h
    simp only [run, foldRes, Res.bind_eq_ok] at h
    obtain ⟨s1, h1, h2⟩ := h
    obtain ⟨ps, h3, h4⟩ := step_best hs (hq op (by simp)) h1
    obtain ⟨ps', h5, h6⟩ := ih (fun o ho => hq o (List.mem_cons_of_mem _ ho)) ((step_steps h1).inv hs) h2
    refine ⟨ps ++ ps', ?_, fun p => ?_⟩
    · rw [received_cons h1, List.flatMap_append, List.map_append, List.map_append, h3, h5]
    · rw [best_append, ← h4 p, h6 p]

end Full
end PSync
