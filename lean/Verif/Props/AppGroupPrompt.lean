import Verif.Proofs.AppGroupPrompt
import Verif.Props.AppGroupSample
import Verif.Props.FairPrompt
/-!
Property C84: a group of full-sync example programs prints everything within a bounded time.
-/
namespace PSync
open Spec

section
variable {ι : Type} {cfg : ι → PubAppCfg} {a : Nat → ι → FullApp} {who : Nat → ι} {what : Nat → FullApp.Op} {len : Nat}

/-- C84, publications.  If the delays drawn are at most `D` ms (60000 in the code) and no scheduled update is more than `late` ms
late, a program whose clock has passed limit·(D + late) has published every number of each of its streams. -/
theorem c84_published [Finite ι] (hg : IsGroup (options cfg)) (ho : OwnStreams cfg) (h : ARun cfg a who what len)
    (hs : Sane (options cfg) (producers (a len))) (D late : Nat) (hD : ∀ i k, (cfg i).delay k ≤ D)
    (hlate : UpdatesInTime late a len) (n : Nat) (hn : n ≤ len) (j : ι) (h1 : 1 ≤ (cfg j).maxPublish) (h2 : (cfg j).maxPublish < 2 ^ 64)
    (hpast : (cfg j).maxPublish.toNat * (D + late) < (a n j).prod.now) (p : Name) (hp : p ∈ (cfg j).streams) :
    printedFor p (a n j).published = upTo 1 (cfg j).maxPublish.toNat ∧ scheduled p (a n j).timers = 0 := by
  have hl := PubAppCfg.limit_eq (cfg := cfg j) (by omega) h2
  have h0 : (a n j).timers = [] := by
    by_contra hne
    have := h.busyUntil hg ho hs hD hlate (i := j) (by omega) (le_refl _) hn hne
    rw [hl] at this
    omega
  obtain ⟨_, k, _, hpub, hor⟩ := c80_own hg ho h hs n hn j p hp h1 h2
  rw [h0] at hor ⊢
  refine ⟨?_, rfl⟩
  rcases hor with h3 | h3
  · simp [scheduled] at h3
  · rw [hpub, h3.1]

/-- C84.  A group of full-sync example programs whose delays are at most `D` ms, whose updates are at most `late` ms late, whose
clocks differ by at most `δ` (with 2δ + lag < 90 ms), and whose packets take at most `Δ` ms from event `t` on.  `X` is a time not before
event `t`, and not before the last update can be due (limit·(D + late)).  Within (2·x + 2)·(2W + Δ + δ) ms after `X`, where `x` is the number of programs
times the number of all updates and `W` is at least lifetime/2 + syncReplyFreshness + 1000 ms plus twice the time timers may be
late, every program has printed 1, 2, …, limit for each stream of each other program. -/
theorem c84_time [Fintype ι] (hg : IsGroup (options cfg)) (ho : OwnStreams cfg) (h : ARun cfg a who what len)
    (hs : Sane (options cfg) (producers (a len)))
    (hnc : ∀ i, NoCollisionsIn (cfg i).pc.expected (PublishedBy (producers (a len))))
    (hfresh : ∀ i j, (cfg i).pc.freshness = (cfg j).pc.freshness)
    (h1 : ∀ j, 1 ≤ (cfg j).maxPublish) (h2 : ∀ j, (cfg j).maxPublish < 2 ^ 64) (hsum : totalUpdates cfg < 2 ^ 64)
    (δ : Nat) (hδ : ∀ i, 2 * δ + (cfg i).pc.lag < 90)
    (hclock : ∀ n < len, (∀ t, what n ≠ .prod (.tick t)) → ∀ i j, (a n i).prod.now ≤ (a n j).prod.now + δ)
    (D late : Nat) (hD : ∀ i k, (cfg i).delay k ≤ D) (hlate : UpdatesInTime late a len)
    (t : Nat) (ht : t ≤ len) (Δ : Nat) (hprompt : Prompt Δ (fun n => producers (a n)) who (producerEvent a who what) t len)
    (W : Nat) (hW : ∀ i, (cfg i).pc.lifetime / 2 + (cfg i).pc.freshness + 1000 + 2 * (cfg i).pc.lag ≤ W)
    (X : Nat) (hX : ∀ i, (a t i).prod.now ≤ X) (hXP : ∀ i, (cfg i).maxPublish.toNat * (D + late) + δ ≤ X)
    (hlong : ∀ i, X + (2 * (Fintype.card ι * totalUpdates cfg) + 2) * (2 * W + Δ + δ) < (a len i).prod.now)
    (i j : ι) (hij : i ≠ j) (p : Name) (hp : p ∈ (cfg j).streams) :
    printedFor p (a len i).printed = upTo 1 (cfg j).maxPublish.toNat := by
  have : Inhabited ι := ⟨i⟩
  have hl : ∀ j, (cfg j).limit = (cfg j).maxPublish.toNat := fun j => PubAppCfg.limit_eq (by have := h1 j; omega) (h2 j)
  have hl1 : ∀ j, 1 ≤ (cfg j).limit := fun j => by rw [hl]; have := h1 j; omega
  have hXδ : δ ≤ X := le_trans (Nat.le_add_left _ _) (hXP i)
  obtain ⟨ti, hti, hidle, hnow⟩ := h.idleFrom hg ho hs hD hlate hl1 (P := X - δ)
    (fun j => by rw [hl]; have := hXP j; omega) hclock (fun j => by have := hlong j; omega)
  obtain ⟨u, hu, hut, huti, hux⟩ : ∃ u ≤ len, t ≤ u ∧ ti ≤ u ∧ ∀ i, (a u i).prod.now ≤ X := by
    rcases Nat.le_total t ti with hc | hc
    · exact ⟨ti, hti, hc, le_refl _, fun i => by have := hnow i; omega⟩
    · exact ⟨t, ht, le_refl _, hc, hX⟩
  have hidle : ∀ i, (a u i).timers = [] := fun i => h.idle huti hu (hidle i)
  obtain ⟨_, k, hk, hpub, hor⟩ := c80_own hg ho h hs len (le_refl _) j p hp (h1 j) (h2 j)
  obtain ⟨_, kt, hkt, _, hort⟩ := c80_own hg ho h hs u hu j p hp (h1 j) (h2 j)
  have hk' : k = (cfg j).maxPublish.toNat := by
    rcases hor with h3 | h3
    · rw [h.idle hu (le_refl _) (hidle j)] at h3; simp [scheduled] at h3
    · exact h3.1
  have hkt' : kt = (cfg j).maxPublish.toNat := by
    rcases hort with h3 | h3
    · rw [hidle j] at h3; simp [scheduled] at h3
    · exact h3.1
  have hmade : ∀ n ≤ len, ∀ p q, PublishedBy (producers (a n)) p q → (p, q) ∈ allUpdates cfg := by
    rintro n hn p q ⟨j, hj⟩
    have h3 := (h.soon hg ho hs hD hlate hn j).2 _ hj
    have h4 := hl1 j
    exact mem_allUpdates.mpr ⟨j, h3.1, h3.2.1, by have := h3.2.2; simp only at this; omega⟩
  obtain ⟨g, w, o, m, g1, g2, g3, g4⟩ := h.asGroup ho
  have hlen : g (m + len) = producers (a len) := g2 len (le_refl _)
  have hbase : ∀ i, (a len i).prod.base.Inv := fun i =>
    Full.reach_inv (FullApp.foreign (ho.once i) (h.appReach (le_refl _) i)).1
  have hcard : (missing (g (m + u)) (allUpdates cfg)).card ≤ Fintype.card ι * totalUpdates cfg := by
    refine le_trans (Finset.card_filter_le _ _) ?_
    rw [Finset.card_product, Finset.card_univ]
    exact Nat.mul_le_mul_left _ (card_allUpdates hl)
  have hc := (c81_time hg g1 (by rw [hlen]; exact hs) (fun k hk p => (g4 k hk).1 p) (by rw [hlen]; exact hnc)
    (fun i => by
      rw [hlen]
      refine lt_of_le_of_lt (le_trans (sumSeq_card (T := allUpdates cfg) ?_ ?_) (card_allUpdates hl)) hsum
      · exact NMap.keys_nodup (hbase i).sorted
      · intro e he q hq1 hq2
        have hf : numberOf (a len i).prod e.1 = e.2 := by
          have := NMap.find_of_mem (hbase i).sorted (k := e.1) (v := e.2) he
          simp only [numberOf, Base.getSeqNo, this, Option.getD_some]
        rcases h.bounded hg ho hs hl1 (le_refl _) i e.1 with h3 | ⟨j, hj, h3⟩
        · omega
        · exact mem_allUpdates.mpr ⟨j, hj, hq1, by omega⟩)
    (fun p q hpq => by
      rw [hlen] at hpq
      obtain ⟨j, _, hq, _⟩ := mem_allUpdates.mp (hmade len (le_refl _) p q hpq)
      omega)
    hfresh δ hδ
    (fun n hn hno i j => by
      by_cases hnm : n < m
      · have h0 : ∀ i, (g n i).now = 0 := fun i => by
          have h3 := g1.time (m := n) (n := m) (by omega) (by omega) i
          have h4 := congrFun (g2 0 (by omega)) i
          rw [Nat.add_zero] at h4
          rw [h4] at h3
          have h5 := (FullApp.init_start (h.init i)).2.1
          simp only [producers] at h3
          omega
        rw [h0, h0]; omega
      · obtain ⟨n, rfl⟩ : ∃ n', n = m + n' := ⟨n - m, by omega⟩
        rw [g2 n (by omega)]
        refine hclock n (by omega) (fun t hop => ?_) i j
        have h3 := (g3 n (by omega)).2
        refine hno t (h3.trans ?_)
        simp only [producerEvent, hop, asProducer, FullApp.outside, if_true])
    (m + u) (by omega)
    (fun k h3 h4 q hq => by
      have h5 := g3 (k - m) (by omega)
      rw [show m + (k - m) = k by omega] at h5
      rw [h5.2] at hq
      refine ((FullApp.asProducer_proper (op := what (k - m)) (FullApp.reach_inv (ho.once _)
        (h.appReach (n := k - m) (by omega) (who (k - m)))).2).2 q hq).2 ?_
      exact h.idle (by omega) (by omega) (hidle _))
    (allUpdates cfg) (fun p q hpq => by rw [g2 u hu] at hpq; exact hmade u hu p q hpq)
    Δ (Spec.Prompt.shift g2 g3 (fun k i nm lt h3 => hprompt k i nm lt (by omega)))
    W hW X (fun i => by rw [g2 u hu]; exact hux i)
    (fun i => by
      rw [hlen]
      refine lt_of_le_of_lt (Nat.add_le_add_left (Nat.mul_le_mul_right _ ?_) X) (hlong i)
      omega) i p).1 j
  rw [hlen, g2 u hu] at hc
  simp only [producers] at hc
  have hpre := (c80_others hg ho h hs len (le_refl _) i j hij p hp)
  have hfor := c80_foreign (cfg i) (a len i) (ho.once i) (h.appReach (le_refl _) i) p (fun hc => hij (ho.own i j p hc hp))
  have hle := hpre.1.length_le
  rw [hfor, hpub] at hle
  simp only [upTo, List.length_range'] at hle
  rw [hfor]
  congr 1
  omega

end
end PSync
