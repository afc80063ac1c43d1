import Verif.Proofs.AppGroup
import Verif.Props.ExamplesProduce
/-!
Property C80: a group of full-sync example programs.
-/
namespace PSync
open Spec

/-- C80, one program.  Whatever packets arrive: the example of full sync prints for every prefix that is not one of its own
streams the numbers 1, 2, …, up to its producer's number of the prefix, each once and in this order. -/
theorem c80_foreign (cfg : PubAppCfg) (a : FullApp) (hn : cfg.streams.Nodup) (hr : FullAppReach cfg a) (p : Name)
    (hp : p ∉ cfg.streams) : printedFor p a.printed = upTo 1 (numberOf a.prod p) :=
  (FullApp.foreign hn hr).2 p hp

section
variable {ι : Type} {cfg : ι → PubAppCfg} {a : Nat → ι → FullApp} {who : Nat → ι} {what : Nat → FullApp.Op} {len : Nat}

/-- C80, own streams.  At any moment the numbers a program has published for a stream are 1, 2, …, k; either k is below the limit and
exactly one further update is scheduled, or k is the limit and none is; and the program prints nothing for the stream. -/
theorem c80_own [Finite ι] (hg : IsGroup (options cfg)) (ho : OwnStreams cfg) (h : ARun cfg a who what len)
    (hs : Sane (options cfg) (producers (a len))) (n : Nat) (hn : n ≤ len) (j : ι) (p : Name) (hp : p ∈ (cfg j).streams)
    (h1 : 1 ≤ (cfg j).maxPublish) (h2 : (cfg j).maxPublish < 2 ^ 64) :
    printedFor p (a n j).printed = [] ∧
    ∃ k, numberOf (a n j).prod p = k ∧ printedFor p (a n j).published = upTo 1 k ∧
      ((k < (cfg j).maxPublish.toNat ∧ scheduled p (a n j).timers = 1) ∨
       (k = (cfg j).maxPublish.toNat ∧ scheduled p (a n j).timers = 0)) := by
  obtain ⟨h3, k, hk, h4, h5⟩ := h.ownAt hg ho hs hn j p hp
  have hl := PubAppCfg.limit_eq (cfg := cfg j) (by omega) h2
  refine ⟨h3, k, by simp [numberOf, hk], h4, ?_⟩
  rcases h5 with ⟨h5, h6⟩ | ⟨h5, h6⟩
  · exact .inl ⟨by omega, h5⟩
  · exact .inr ⟨by omega, h5⟩

/-- C80, streams of others.  At any moment what program `i` has printed for a stream of program `j` is an initial piece of what `j` has
published for it: 1, 2, …, without a gap, a repetition or an invention. -/
theorem c80_others [Finite ι] (hg : IsGroup (options cfg)) (ho : OwnStreams cfg) (h : ARun cfg a who what len)
    (hs : Sane (options cfg) (producers (a len))) (n : Nat) (hn : n ≤ len) (i j : ι) (hij : i ≠ j) (p : Name) (hp : p ∈ (cfg j).streams) :
    printedFor p (a n i).printed <+: printedFor p (a n j).published ∧
    (printedFor p (a n i).printed = printedFor p (a n j).published ↔ numberOf (a n i).prod p = numberOf (a n j).prod p) := by
  obtain ⟨_, k, hk, h4, _⟩ := h.ownAt hg ho hs hn j p hp
  have hkn : numberOf (a n j).prod p = k := by simp [numberOf, hk]
  rw [c80_foreign (cfg i) (a n i) (ho.once i) (h.appReach hn i) p (fun hc => hij (ho.own i j p hc hp)), h4, hkn]
  have hle : numberOf (a n i).prod p ≤ k := by
    rcases (h.greach ho hn).owned hg (h.saneAt ho hs hn) i p with h0 | ⟨j', hj', hm⟩
    · have : numberOf (a n i).prod p = 0 := h0
      omega
    · have := ho.own _ _ p hj' hp
      subst this
      have := (h.greach ho hn).reached _ p _ hm
      simpa only [producers, hkn] using this
  refine ⟨upTo_prefix hle, fun he => ?_, fun he => by rw [he]⟩
  have := congrArg List.length he
  simpa [upTo] using this

/-- C80, other names.  Nothing is printed for what is nobody's stream. -/
theorem c80_nothing_else [Finite ι] (hg : IsGroup (options cfg)) (ho : OwnStreams cfg) (h : ARun cfg a who what len)
    (hs : Sane (options cfg) (producers (a len))) (n : Nat) (hn : n ≤ len) (i : ι) (p : Name) (hp : ∀ j, p ∉ (cfg j).streams) :
    printedFor p (a n i).printed = [] := by
  rw [c80_foreign (cfg i) (a n i) (ho.once i) (h.appReach hn i) p (hp i)]
  rcases (h.greach ho hn).owned hg (h.saneAt ho hs hn) i p with h0 | ⟨j', hj', _⟩
  · have : numberOf (a n i).prod p = 0 := h0
    rw [this]; rfl
  · exact absurd hj' (hp j')

/-- C80, in the end.  All updates have been published before event `t`; after it exchanges carry what each program knew to every other one
(as in C57).  Then every program has printed, for each stream of each other program, the numbers 1, 2, …, up to the limit the
other one was started with. -/
theorem c80_everything [Finite ι] (hg : IsGroup (options cfg)) (ho : OwnStreams cfg) (h : ARun cfg a who what len)
    (hs : Sane (options cfg) (producers (a len)))
    (hnc : ∀ i, NoCollisionsIn (cfg i).pc.expected (PublishedBy (producers (a len)))) (t : Nat) (ht : t ≤ len)
    (hidle : ∀ i, (a t i).timers = [])
    (hpath : ∀ j i, Path NotStored (options cfg) (fun n => producers (a n)) who (producerEvent a who what) j t i len)
    (i j : ι) (hij : i ≠ j) (p : Name) (hp : p ∈ (cfg j).streams)
    (h1 : 1 ≤ (cfg j).maxPublish) (h2 : (cfg j).maxPublish < 2 ^ 64) :
    printedFor p (a len i).printed = upTo 1 (cfg j).maxPublish.toNat := by
  have : Inhabited ι := ⟨i⟩
  obtain ⟨_, k, hk, hpub, hor⟩ := c80_own hg ho h hs len (le_refl _) j p hp h1 h2
  obtain ⟨_, kt, hkt, _, hort⟩ := c80_own hg ho h hs t ht j p hp h1 h2
  have hk' : k = (cfg j).maxPublish.toNat := by
    rcases hor with h3 | h3
    · rw [h.idle ht (le_refl _) (hidle j)] at h3; simp [scheduled] at h3
    · exact h3.1
  have hkt' : kt = (cfg j).maxPublish.toNat := by
    rcases hort with h3 | h3
    · rw [hidle j] at h3; simp [scheduled] at h3
    · exact h3.1
  obtain ⟨g, w, o, m, g1, g2, g3, g4⟩ := h.asGroup ho
  have hlen : g (m + len) = producers (a len) := g2 len (le_refl _)
  have hc := (c57_converge_partial hg g1 (by rw [hlen]; exact hs) (fun k hk p => (g4 k hk).1 p) (by rw [hlen]; exact hnc) (m + t)
    (fun k h3 h4 q hq => by
      have h5 := g3 (k - m) (by omega)
      rw [show m + (k - m) = k by omega] at h5
      rw [h5.2] at hq
      refine ((FullApp.asProducer_proper (op := what (k - m)) (FullApp.reach_inv (ho.once _)
        (h.appReach (n := k - m) (by omega) (who (k - m)))).2).2 q hq).2 ?_
      exact h.idle (by omega) (by omega) (hidle _))
    (fun j i => (hpath j i).shift g2 g3 (le_refl _)) i p).1 j
  rw [hlen, g2 t ht] at hc
  simp only [producers] at hc
  have hpre := (c80_others hg ho h hs len (le_refl _) i j hij p hp)
  have hfor := c80_foreign (cfg i) (a len i) (ho.once i) (h.appReach (le_refl _) i) p (fun hc => hij (ho.own i j p hc hp))
  have hle := hpre.1.length_le
  rw [hfor, hpub] at hle
  simp only [upTo, List.length_range'] at hle
  rw [hfor]
  congr 1
  omega

end
end PSync
