import Verif.Proofs.MicroLog
import Verif.Proofs.Honest
import Verif.Proofs.PubSubProducer
import Verif.Proofs.Stale
import Verif.Props.SegPub
import Verif.Props.Consumer
import Verif.Spec.Memory
/-!
Property C106: how much a node remembers does not depend on how much was published.
-/
namespace PSync
open Spec

/-- The table has keys of `L` only. -/
def NMap.Within {β : Type} (m : NMap β) (L : List Name) : Prop := ∀ p x, m.find p = some x → p ∈ L

theorem NMap.Within.length_le {β : Type} {m : NMap β} {L : List Name} (h : m.Within L) (hs : m.Sorted) : m.length ≤ L.length := by
  have h1 : m.keys ⊆ L := by
    intro p hp
    rw [NMap.mem_keys] at hp
    obtain ⟨x, hx⟩ := Option.isSome_iff_exists.mp hp
    exact h p x hx
  have h2 := ((NMap.keys_nodup hs).subperm h1).length_le
  simpa [NMap.keys] using h2

/-- Each entry of the name table belongs to another prefix that has a publication. -/
theorem Base.Inv.biMap_le {b : Base} (h : b.Inv) : b.biMap.length ≤ (b.prefixes.filter (fun e => decide (e.2 ≠ 0))).length := by
  have key : ∀ e ∈ b.biMap, ∃ p x, (p, x) ∈ b.prefixes.filter (fun e => decide (e.2 ≠ 0)) ∧ e.2 = Name.appendNumber p x ∧ x < U64 := by
    rintro ⟨k, n⟩ he
    obtain ⟨_, p, x, h1, h2, h3⟩ := h.bm k n he
    refine ⟨p, x, ?_, h3, h.lt p x h1⟩
    rw [List.mem_filter]
    exact ⟨NMap.mem_of_find h1, by simpa using h2⟩
  have h1 : b.biMap.map Prod.snd ⊆ (b.prefixes.filter (fun e => decide (e.2 ≠ 0))).map (fun e => Name.appendNumber e.1 e.2) := by
    intro n hn
    rw [List.mem_map] at hn
    obtain ⟨e, he, rfl⟩ := hn
    obtain ⟨p, x, h1, h2, _⟩ := key e he
    rw [h2]
    exact List.mem_map.mpr ⟨(p, x), h1, rfl⟩
  have h2 := (h.nodupR.subperm h1).length_le
  simpa using h2

namespace Base

theorem within_add {L : List Name} {b : Base} {p : Name} (h : b.prefixes.Within L) (hp : p ∈ L) : (b.addUserNode p).2.prefixes.Within L := by
  intro q x hq
  rw [find_addUserNode] at hq
  split at hq
  · rename_i e; subst e; exact hp
  · exact h q x hq

theorem within_update {L : List Name} {b b' : Base} {p : Name} {q : Nat} (h : b.prefixes.Within L) (hx : b.updateSeqNo p q = .ok b') :
    b'.prefixes.Within L := by
  intro r x hr
  rw [find_updateSeqNo hx] at hr
  split at hr
  · rename_i e
    subst e
    cases hf : b.prefixes.find p with
    | none => rw [hf] at hr; cases hr
    | some y => exact h p y hf
  · exact h r x hr

theorem within_remove {L : List Name} {b b' : Base} {p : Name} (h : b.prefixes.Within L) (hx : b.removeUserNode p = .ok b') :
    b'.prefixes.Within L := by
  intro r x hr
  rw [(removeUserNode_ok hx).1, NMap.find_erase] at hr
  split at hr
  · cases hr
  · exact h r x hr

theorem within_merge {L : List Name} {b b' : Base} {us : List MissingDataInfo} (hm : MergeRel b us b') :
    b.prefixes.Within L → (∀ u ∈ us, u.pfx ∈ L) → b'.prefixes.Within L := by
  induction hm with
  | nil b => exact fun h _ => h
  | newer p q face _ _ h1 _ ih =>
    intro h hu
    refine ih (within_update (within_add h ?_) h1) (fun u hm => hu u (List.mem_cons_of_mem _ hm))
    exact hu _ List.mem_cons_self

end Base

namespace Full

theorem within_call {cfg : Cfg} {L : List Name} {s s' : Full} {c : Call} (h : s.base.prefixes.Within L)
    (hc : ∀ p, c = .addUserNode p → p ∈ L) (hx : call cfg s c = .ok s') : s'.base.prefixes.Within L := by
  cases c with
  | addUserNode p =>
    simp only [call, Res.ok.injEq] at hx
    subst hx
    exact Base.within_add h (hc p rfl)
  | removeUserNode p =>
    simp only [call, Res.bind_eq_ok, Res.ok.injEq] at hx
    obtain ⟨b, h1, rfl⟩ := hx
    exact Base.within_remove h h1
  | publishName p q =>
    rcases publishName_base (show publishName cfg s p q = .ok s' from hx) with ⟨_, rfl⟩ | ⟨cur, _, h1⟩
    · exact h
    · exact Base.within_update h h1

theorem within_step {cfg : Cfg} {L : List Name} {s s' : Full} {op : Op} (hi : s.base.Inv) (h : s.base.prefixes.Within L)
    (ht : ∀ p, TellsFull cfg op p → p ∈ L) (hx : step cfg s op = .ok s') : s'.base.prefixes.Within L := by
  by_cases h1 : ∃ c, op = .call c
  · obtain ⟨c, rfl⟩ := h1
    exact within_call h (fun p hp => ht p (.inl (by rw [hp]))) hx
  by_cases h2 : ∃ buf acts, op = .complete buf acts
  · obtain ⟨buf, acts, rfl⟩ := h2
    simp only [step] at hx
    split at hx
    · split at hx
      · rename_i f hf ha
        unfold onSyncData at hx
        simp only at hx
        split at hx
        · cases hx; exact h
        · rename_i ns hns
          simp only [Res.bind_eq_ok] at hx
          obtain ⟨r, hr, hx⟩ := hx
          obtain ⟨us, e1, hm, hu⟩ := merge_rel _ hr
          have hb : r.2.Inv := (merge_steps (R := fun _ => False) _ hr).inv hi
          have hw : r.2.prefixes.Within L := by
            refine Base.within_merge hm h (fun u hu' => ?_)
            obtain ⟨n, hn, ha⟩ := hu u hu'
            refine ht _ (.inr ⟨buf, acts, rfl, .inr ?_⟩)
            unfold decodeReply at hns
            split at hns
            · cases hns
            · rename_i raw hraw
              split at hns
              · rename_i st hst
                cases hns
                exact ⟨raw, st, n, u.highSeq, hraw, hst, hn, ha⟩
              · cases hns
          split at hx
          · cases hx; exact hw
          · simp only [Res.bind_eq_ok] at hx
            obtain ⟨s1, h3, h4⟩ := hx
            have hs1 := (calls_steps h3).inv hb
            rw [processWaiting_base (s := { s1 with sched := some (s1.now + cfg.jitter s1.draws, .renew), draws := s1.draws + 1, waitOut := false }) hs1 h4]
            have hw1 : s1.base.prefixes.Within L := foldRes_inv (P := fun s : Full => s.base.prefixes.Within L) acts
              (fun a c b hc ha hb => within_call ha (fun p hp => ht p (.inr ⟨buf, acts, rfl, .inl (hp ▸ hc)⟩)) hb) (by exact hw) h3
            exact hw1
      · cases hx; exact h
    · cases hx; exact h
  · rw [step_same_base hi hx (fun c e => h1 ⟨c, e⟩) (fun b a e => h2 ⟨b, a, e⟩)]
    exact h

end Full

/-- The store of any sequence of small steps is bounded. -/
theorem Micros.store_le {ρ : Rules} (hl : 0 < ρ.limit) {v v' : View} (h : Micros ρ v v') (hv : v.pub.store.length ≤ ρ.limit) :
    v'.pub.store.length ≤ ρ.limit := by
  induction h with
  | refl => exact hv
  | @tail w v' h1 h ih =>
    cases h with
    | data now iname dname buf fr r hd h =>
      simp only [(publish_ok h).1]
      exact storeFold_length hl _ ih
    | fire t => exact (eraseFold_sublist _ _).length_le.trans ih
    | _ => exact ih

namespace Bloom

theorem setBit_length {bf : Bloom} {n : Name} {bits bits' : Bytes} {k : U32} (h : bf.setBit n bits k = .ok bits') :
    bits'.length = bits.length := by
  unfold Bloom.setBit at h
  split at h
  · cases h
  · simp only at h
    split at h
    · cases h
    · cases h; simp

theorem insert_length {bf bf' : Bloom} {n : Name} (h : bf.insert n = .ok bf') : bf'.bits.length = bf.bits.length := by
  unfold Bloom.insert at h
  simp only [Res.bind_eq_ok, Res.ok.injEq] at h
  obtain ⟨bits, h1, rfl⟩ := h
  exact foldRes_inv (P := fun b : Bytes => b.length = bf.bits.length) bf.salts
    (fun _ _ _ _ ha hb => (setBit_length hb).trans ha) rfl h1

theorem runBf_length {bf bf' : Bloom} {ops : List BfOp} (h : runBf bf ops = .ok bf') : bf'.bits.length = bf.bits.length := by
  refine foldRes_inv (P := fun b : Bloom => b.bits.length = bf.bits.length) ops (fun b op b' _ hb hx => ?_) rfl h
  cases op with
  | ins n => exact (insert_length hx).trans hb
  | clear =>
    simp only [BfOp.apply, Res.ok.injEq] at hx
    subst hx
    simpa [Bloom.clear] using hb

end Bloom

namespace Cons

theorem within_call {cfg : CCfg} {L : List Name} {s s' : Cons} {c : Call} (h : s.prefixes.Within L)
    (hc : ∀ p q cb, c = .addSubscription p q cb → p ∈ L) (hx : call cfg s c = .ok s') : s'.prefixes.Within L := by
  cases c with
  | addSubscription p q cb =>
    simp only [call, Res.bind_eq_ok, Res.ok.injEq] at hx
    obtain ⟨⟨r, s1⟩, h1, rfl⟩ := hx
    rcases addSubscription_ok h1 with ⟨_, _, rfl⟩ | ⟨_, _, bf, _, h2, _⟩
    · exact h
    · intro r x hr
      simp only at hr
      rw [h2, NMap.find_set] at hr
      split at hr
      · rename_i e; rw [← e]; exact hc p q cb rfl
      · exact h r x hr
  | removeSubscription p =>
    simp only [call, Res.bind_eq_ok, Res.ok.injEq] at hx
    obtain ⟨⟨r, s1⟩, h1, rfl⟩ := hx
    rcases removeSubscription_ok h1 with ⟨_, _, rfl⟩ | ⟨_, _, bf, _, rfl⟩
    · exact h
    · intro r x hr
      simp only at hr
      rw [NMap.find_erase] at hr
      split at hr
      · cases hr
      · exact h r x hr
  | sendHello => simp only [call, Res.ok.injEq] at hx; subst hx; exact h
  | sendSync =>
    obtain ⟨_, cs, _, rfl⟩ := sendSyncInterest_ok (show s.sendSyncInterest cfg = .ok s' from hx)
    exact h
  | stop => simp only [call, Res.ok.injEq] at hx; subst hx; exact h

theorem within_calls {cfg : CCfg} {L : List Name} {s s' : Cons} {cs : List Call} (h : s.prefixes.Within L)
    (hc : ∀ p q cb, .addSubscription p q cb ∈ cs → p ∈ L) (hx : foldRes (call cfg) s cs = .ok s') : s'.prefixes.Within L :=
  foldRes_inv (P := fun s : Cons => s.prefixes.Within L) cs
    (fun _ _ _ hm ha hb => within_call ha (fun p q cb e => hc p q cb (e ▸ hm)) hb) h hx

theorem within_hello {L : List Name} {subs : NMap Unit} {names : List Name} {a r : NMap Nat × List MissingDataInfo × NMap Nat}
    (h : foldRes (helloStep subs) a names = .ok r) (hk : ∀ p, (subs.find p).isSome → (a.1.find p).isSome) (ha : a.1.Within L) :
    r.1.Within L := by
  have := foldRes_inv (P := fun r : NMap Nat × List MissingDataInfo × NMap Nat =>
    (∀ p, (subs.find p).isSome → (r.1.find p).isSome) ∧ r.1.Within L) names
    (by
      rintro b n b' _ ⟨h1, h2⟩ hst
      obtain ⟨p, q, _, _, _, ⟨c, _, hf, _, h, _⟩ | ⟨_, h, _⟩⟩ := helloStep_ok h1 hst
      all_goals rw [h]
      · refine ⟨fun p' hp' => find_set_isSome (h1 p' hp'), fun r x hr => ?_⟩
        rw [NMap.find_set] at hr
        split at hr
        · rename_i e; rw [← e]; exact h2 _ _ hf
        · exact h2 r x hr
      · exact ⟨h1, h2⟩) ⟨hk, ha⟩ h
  exact this.2

theorem within_sync {L : List Name} {names : List Name} {a r : NMap Nat × List MissingDataInfo}
    (h : foldRes syncStep a names = .ok r) (hn : ∀ n ∈ names, ∀ p q, announced n = some (p, q) → p ∈ L) (ha : a.1.Within L) :
    r.1.Within L := by
  refine foldRes_inv (P := fun r : NMap Nat × List MissingDataInfo => r.1.Within L) names (fun b n b' hm hb hst => ?_) ha h
  have key : ∀ p q, announced n = some (p, q) → b'.1 = b.1.set p q → b'.1.Within L := by
    intro p q hp e r x hr
    rw [e, NMap.find_set] at hr
    split at hr
    · rename_i e; rw [← e]; exact hn n hm p q hp
    · exact hb r x hr
  obtain ⟨p, q, hp, _, ⟨_, h⟩ | ⟨_, _, _, h⟩ | ⟨_, _, _, h⟩⟩ := syncStep_ok hst
  · exact key p q hp (by rw [h])
  · exact key p q hp (by rw [h])
  · rw [h]; exact hb

theorem within_step {cfg : CCfg} {L : List Name} {bf0 : Bloom} {s s' : Cons} {op : Op} (hi : CInv bf0 s) (h : s.prefixes.Within L)
    (ht : ∀ p, TellsCons op p → p ∈ L) (hx : step cfg s op = .ok s') : s'.prefixes.Within L := by
  cases op with
  | call c => exact within_call h (fun p q cb e => ht p (.inl ⟨q, cb, by rw [e]⟩)) hx
  | helloSegment d =>
    simp only [step] at hx
    split at hx
    · cases hx; split <;> exact h
    · cases hx; exact h
  | helloComplete buf a1 a2 =>
    simp only [step] at hx
    split at hx
    · simp only [onHelloData, Res.bind_eq_ok] at hx
      obtain ⟨st, _, r, h0, s1, h1, h2⟩ := hx
      have k0 := within_hello h0 hi.sub h
      have k1 : s1.prefixes.Within L :=
        within_calls (by exact k0) (fun p q cb hm => ht p (.inr (.inl ⟨buf, a1, a2, q, cb, rfl, List.mem_append_left _ hm⟩))) h1
      split at h2
      · cases h2; exact k1
      · exact within_calls (by exact k1)
          (fun p q cb hm => ht p (.inr (.inl ⟨buf, a1, a2, q, cb, rfl, List.mem_append_right _ hm⟩))) h2
    · cases hx; exact h
  | helloError =>
    simp only [step] at hx
    split at hx <;> (cases hx; exact h)
  | syncSegment d =>
    simp only [step] at hx
    split at hx
    · cases hx
      split <;> split <;> exact h
    · cases hx; exact h
  | syncComplete buf acts =>
    simp only [step] at hx
    split at hx
    · split at hx
      · cases hx; exact h
      · simp only [onSyncData, Res.bind_eq_ok] at hx
        obtain ⟨st, hst, r, h0, s1, h1, h2⟩ := hx
        have k0 : r.1.Within L := within_sync h0
          (fun n hn p q ha => ht p (.inr (.inr ⟨buf, acts, rfl, .inr ⟨st, n, q, hst, hn, ha⟩⟩))) h
        have k1 : s1.prefixes.Within L := by
          split at h1
          · cases h1; exact k0
          · exact within_calls (by exact k0) (fun p q cb hm => ht p (.inr (.inr ⟨buf, acts, rfl, .inl ⟨q, cb, hm⟩⟩))) h1
        obtain ⟨_, cs, _, rfl⟩ := sendSyncInterest_ok h2
        exact k1
    · cases hx; exact h
  | syncError t =>
    simp only [step] at hx
    split at hx
    · split at hx
      · obtain ⟨_, cs, _, rfl⟩ := sendSyncInterest_ok hx
        exact h
      · cases hx; exact h
    · cases hx; exact h
  | tick t =>
    simp only [step, Res.ok.injEq] at hx
    subst hx
    split <;> exact h
  | fire =>
    simp only [step] at hx
    split at hx
    · cases hx; exact h
    · cases hx; exact h
    · obtain ⟨_, cs, _, rfl⟩ := sendSyncInterest_ok hx
      exact h

end Cons

/-- C106 for a full-sync node: whatever happened, it has numbers only for prefixes of `L` if it was told of no others; the table of
hashes and names has at most one entry for each prefix with a publication; the IBF has the size it was constructed with; and the store
of reply segments is within its limit. -/
theorem c106_full (cfg : Cfg) (he : 0 < cfg.expected) (hl : 0 < cfg.imsLimit) (L : List Name) (ops : List Full.Op) (s0 s : Full)
    (h0 : Full.init cfg = .ok s0) (h : Full.run cfg s0 ops = .ok s) (hL : ∀ op ∈ ops, ∀ p, TellsFull cfg op p → p ∈ L) :
    (∀ p x, s.base.getSeqNo p = some x → p ∈ L) ∧ s.base.prefixes.length ≤ L.length ∧
    s.base.biMap.length ≤ (s.base.prefixes.filter (fun e => decide (e.2 ≠ 0))).length ∧
    s.base.iblt.length = 3 * ((cfg.expected + 1) / 2) ∧ s.pub.store.length ≤ cfg.imsLimit := by
  have hr : Full.Reach cfg s := ⟨s0, ops, h0, h⟩
  have hi := Full.reach_inv hr
  have hw : s.base.prefixes.Within L := by
    have := foldRes_inv (P := fun s : Full => s.base.Inv ∧ s.base.prefixes.Within L) ops
      (fun a op b hm ha hb => ⟨(Full.step_steps hb).inv ha.1, Full.within_step ha.1 ha.2 (hL op hm) hb⟩)
      ⟨by rw [Full.init_base h0]; exact Base.inv_new cfg, by rw [Full.init_base h0]; intro p x hx; simp [Base.new] at hx⟩ h
    exact this.2
  obtain ⟨ops', hm⟩ := Full.reach_micro hr
  have hst : s.pub.store.length ≤ cfg.imsLimit := Micros.store_le (ρ := Full.runRules cfg ops') hl hm (by simp [SegPub.empty])
  have hg := (hm.steps.ranged he (Base.ranged_new cfg)).1
  refine ⟨hw, hw.length_le hi.sorted, hi.biMap_le, ?_, hst⟩
  rw [show s.base.iblt.length = _ from hg]
  unfold buckets
  omega

/-- C106 for a partial-sync producer: the same, and the prefixes are those the application added. -/
theorem c106_producer (cfg : Cfg) (he : 0 < cfg.expected) (hl : 0 < cfg.imsLimit) (L : List Name) (ops : List Part.Op) (s : Part)
    (h : Part.run cfg (Part.init cfg) ops = .ok s) (hL : ∀ p, .addUserNode p ∈ ops → p ∈ L) :
    (∀ p x, s.base.getSeqNo p = some x → p ∈ L) ∧ s.base.prefixes.length ≤ L.length ∧
    s.base.biMap.length ≤ (s.base.prefixes.filter (fun e => decide (e.2 ≠ 0))).length ∧
    s.base.iblt.length = 3 * ((cfg.expected + 1) / 2) ∧ s.pub.store.length ≤ cfg.imsLimit := by
  have hr : Part.Reach cfg s := ⟨ops, h⟩
  have hi := Part.reach_inv hr
  have hw : s.base.prefixes.Within L :=
    foldRes_inv (P := fun s : Part => s.base.prefixes.Within L) ops
      (fun a op b hm ha hb p x hp => by
        rcases Part.step_registers hb hp with ⟨y, hy⟩ | rfl
        · exact ha p y hy
        · exact hL p hm) (by intro p x hx; simp [Part.init, Base.new] at hx) h
  have hm := Part.reach_micro hr
  have hst : s.pub.store.length ≤ cfg.imsLimit := Micros.store_le hl hm (by simp [SegPub.empty])
  have hg := (hm.steps.ranged he (Base.ranged_new cfg)).1
  refine ⟨hw, hw.length_le hi.sorted, hi.biMap_le, ?_, hst⟩
  rw [show s.base.iblt.length = _ from hg]
  unfold buckets
  omega

/-- C106 for a consumer: it has numbers only for prefixes it subscribed to or was sent in sync replies, subscriptions among these, and
its filter keeps the size it was constructed with. -/
theorem c106_consumer (cfg : CCfg) (L : List Name) (ops : List Cons.Op) (s0 s : Cons)
    (h0 : Cons.init cfg = .ok s0) (h : Cons.run cfg s0 ops = .ok s) (hL : ∀ op ∈ ops, ∀ p, TellsCons op p → p ∈ L) :
    (∀ p x, s.getSeqNo p = some x → p ∈ L) ∧ s.prefixes.length ≤ L.length ∧ s.subs.length ≤ s.prefixes.length ∧
    s.bloom.bits.length = s0.bloom.bits.length := by
  obtain ⟨bf, hb, e1, e2, e3, _, _⟩ := Cons.init_ok h0
  have i0 : CInv bf s0 := by
    obtain ⟨bf', hb', hi⟩ := (Cons.Reach.moment ⟨s0, [], h0, rfl⟩).inv
    rw [hb] at hb'; cases hb'; exact hi
  have key : CInv bf s ∧ s.prefixes.Within L :=
    foldRes_inv (P := fun s : Cons => CInv bf s ∧ s.prefixes.Within L) ops
      (fun a op b hm ha hb => ⟨(Cons.step_micros hb).inv ha.1, Cons.within_step ha.1 ha.2 (hL op hm) hb⟩)
      ⟨i0, by rw [e2]; intro p x hx; simp at hx⟩ h
  obtain ⟨hi, hw⟩ := key
  refine ⟨hw, hw.length_le hi.psorted, ?_, ?_⟩
  · have : s.subs.Within s.prefixes.keys := by
      intro p x hx
      exact NMap.mem_keys.mpr (hi.sub p (by rw [hx]; rfl))
    simpa [NMap.keys] using this.length_le hi.ssorted
  · obtain ⟨bops, h1, _⟩ := hi.bloom
    rw [Bloom.runBf_length h1, e1]

/-- Non-vacuity for C106: three publications of one prefix and none of another leave one entry in the table of names. -/
example : ((Part.run sampleCfg (Part.init sampleCfg) [.addUserNode pA, .addUserNode pB, .publishName pA none, .publishName pA none,
    .publishName pA none]).get?.map (fun s => (s.base.getSeqNo pA, s.base.prefixes.length, s.base.biMap.length, s.base.iblt.length))) =
    some (some 3, 2, 1, 3 * ((sampleCfg.expected + 1) / 2)) := by decide +kernel

/-- Non-vacuity for `c106_full`: the same numbers heard from another node, twice. -/
example : ((((Full.init sampleCfg).bind fun s0 => Full.run sampleCfg s0 [.call (.addUserNode pA), .call (.publishName pA none),
    .complete (encodeNames [pB.appendNumber 5]) [], .call (.publishName pA none)])).get?.map
    (fun s => (s.base.prefixes, s.base.biMap.length))) = some ([(pA, 2), (pB, 5)], 2) := by decide +kernel

end PSync
