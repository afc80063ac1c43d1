import Verif.Props.Served
/-!
Property C52: exactly which consumers a producer understands.
-/
namespace PSync
open Spec

/-- The fields of the sync Interest sent at any moment of a consumer's execution. -/
theorem Cons.Moment.sync_name {ccfg : CCfg} {bf0 : Bloom} {c : Component} {s s' : Cons} {n : Name} {lt : Nat}
    (hc : ccfg.bfCount < 2 ^ 32) (hb : freshFilter ccfg = .ok bf0) (hz : SizedBf bf0) (hs : Cons.Moment ccfg s)
    {th : Nat} (hth : ccfg.libm.toThousandths ccfg.bfFpp = some th) (hth2 : th < 2 ^ 64) (hi : s.iblt = [c])
    (h : s.sendSyncInterest ccfg = .ok s') (hl : s'.log = s.log ++ [.interest n lt]) :
    ∃ c1 c2 c3, n = ccfg.syncPrefix ++ [SYNC, c1, c2, c3, c] ∧ readNni c1.value = some ccfg.bfCount ∧
      readNni c2.value = some th ∧ c3.value.length = bf0.bits.length := by
  obtain ⟨bf1, hb1, hinv⟩ := hs.inv
  unfold freshFilter at hb
  rw [hb] at hb1
  cases hb1
  obtain ⟨ops, k1, _⟩ := hinv.bloom
  obtain ⟨_, cs, hcs, rfl⟩ := Cons.sendSyncInterest_ok h
  have hn := List.append_cancel_left hl
  simp only [List.cons.injEq, Out.interest.injEq, and_true] at hn
  obtain ⟨hn, _⟩ := hn
  obtain ⟨b, j1, _, j3, j4, _, _⟩ := runBf_of ops bf0 [] hz (by simp)
  rw [k1] at j1
  cases j1
  have e := j3 []
  simp only [Bloom.mk.injEq, true_and] at e
  unfold Bloom.new at hb
  obtain ⟨kt, _, hb⟩ := Res.bind_eq_ok.mp hb
  simp only [Res.ok.injEq] at hb
  have efpp : s.bloom.fpp = ccfg.bfFpp := by rw [← e.2.2.2, ← hb]
  have eproj : s.bloom.projected = ccfg.bfCount := by rw [← e.2.2.1, ← hb]
  unfold Bloom.toComponents at hcs
  rw [efpp, eproj, hth] at hcs
  simp only [Res.ok.injEq] at hcs
  subst hcs
  refine ⟨⟨TlvType.generic, nniBytes ccfg.bfCount⟩, ⟨TlvType.generic, nniBytes th⟩, ⟨TlvType.generic, s.bloom.bits⟩, ?_,
    readNni_nniBytes _ (by omega), readNni_nniBytes _ (by omega), j4⟩
  rw [← hn, hi, Cons.syncPrefixName]
  simp

/-- C52, exactly: whatever the probability, the producer can read the sync Interest if and only if the filter it builds
from the transmitted numbers has as many bytes as the consumer's. -/
theorem c52_exact (pcfg : Cfg) (ccfg : CCfg) (bf0 : Bloom) (t : Table) (c : Component) (s s' : Cons) (n : Name) (lt : Nat)
    (e1 : ccfg.syncPrefix = pcfg.syncPrefix) (e2 : ccfg.libm = pcfg.libm) (e3 : ccfg.extraSalt = pcfg.extraSalt)
    (hc : ccfg.bfCount < 2 ^ 32) (hb : freshFilter ccfg = .ok bf0) (hz : SizedBf bf0) (hs : Cons.Reach ccfg s)
    (th : Nat) (hth : ccfg.libm.toThousandths ccfg.bfFpp = some th) (hth2 : th < 2 ^ 64)
    (ht : Table.initialize pcfg.ibltCodec pcfg.expected c = .ok t) (hi : s.iblt = [c])
    (h : s.sendSyncInterest ccfg = .ok s') (hl : s'.log = s.log ++ [.interest n lt]) :
    (∃ bf t', SyncFields pcfg n bf t') ↔
      ∃ k m, optimalParams ccfg.libm ccfg.bfCount (ccfg.libm.ofThousandths th) = .ok (k, m) ∧ m / 8 = bf0.bits.length := by
  obtain ⟨c1, c2, c3, hn, h1, h2, h3⟩ := hs.moment.sync_name hc hb hz hth hth2 hi h hl
  constructor
  · rintro ⟨bf, t', b1, b2, b3, b4, count, fpp, hn', r1, r2, r3, _⟩
    rw [hn, e1] at hn'
    have := List.append_cancel_left hn'
    simp only [List.cons.injEq, and_true, true_and] at this
    obtain ⟨rfl, rfl, rfl, rfl⟩ := this
    rw [h1] at r1; rw [h2] at r2
    cases r1; cases r2
    rw [Nat.mod_eq_of_lt (by omega), ← e2] at r3
    unfold Bloom.ofComponent at r3
    obtain ⟨bf1, r4, r5⟩ := Res.bind_eq_ok.mp r3
    unfold Bloom.new at r4
    obtain ⟨⟨k, m⟩, r6, r7⟩ := Res.bind_eq_ok.mp r4
    simp only [Res.ok.injEq] at r7
    refine ⟨k, m, r6, ?_⟩
    split at r5
    · cases r5
    · rename_i hne
      rw [← r7] at hne
      rw [← h3]
      exact (not_not.mp hne).symm
  · rintro ⟨k, m, h4, h5⟩
    refine ⟨⟨genSalts ccfg.extraSalt k, c3.value, m, ccfg.bfCount, ccfg.libm.ofThousandths th⟩, t, c1, c2, c3, c, ccfg.bfCount, th,
      by rw [hn, e1], h1, h2, ?_, ht⟩
    rw [Nat.mod_eq_of_lt (by omega), ← e2, ← e3]
    unfold Bloom.ofComponent Bloom.new
    rw [h4]
    simp only [Res.ok_bind]
    rw [if_neg (by rw [h3, h5]; simp)]

/-- A sync Interest whose fields the producer cannot read leaves it as it was: it neither answers nor parks it. -/
theorem unread_ignored {cfg : Cfg} {P P' : Part} (hP : Part.Reach cfg P) {c1 c2 c3 c4 : Component} {lt : Nat} {nonce : Nat}
    (hno : ¬ ∃ bf t, SyncFields cfg (cfg.syncPrefix ++ [SYNC, c1, c2, c3, c4]) bf t)
    (h : Part.step cfg P (.recvInterest ⟨cfg.syncPrefix ++ [SYNC, c1, c2, c3, c4], lt, nonce⟩) = .ok P') : P' = P := by
  have hsync : (cfg.syncPrefix ++ [SYNC]) <+: cfg.syncPrefix ++ [SYNC, c1, c2, c3, c4] := ⟨[c1, c2, c3, c4], by simp⟩
  have hhello : ¬ (cfg.syncPrefix ++ [HELLO]) <+: cfg.syncPrefix ++ [SYNC, c1, c2, c3, c4] := by
    rintro ⟨r, hr⟩
    rw [List.append_assoc, List.append_cancel_left_eq] at hr
    simp only [List.cons_append, List.cons.injEq] at hr
    exact absurd hr.1 (by decide)
  simp only [Part.step] at h
  rw [if_neg (by rw [List.isPrefixOf_iff_prefix]; exact hhello), if_pos (List.isPrefixOf_iff_prefix.mpr hsync)] at h
  rcases Part.onSyncInterest_cases' hsync h with ⟨d, hd, rfl⟩ | ⟨_, rfl | ⟨key, bf, iblt, hf, hk, _⟩⟩
  · exfalso
    obtain ⟨hm, hp, _⟩ := storeFind_some hd
    rw [List.isPrefixOf_iff_prefix] at hp
    obtain ⟨r0, hp⟩ := hp
    rcases stored_name hP hm with ⟨r, hr⟩ | ⟨key, bf, t, r, hf, hr⟩
    · rw [hr, List.append_assoc, List.append_cancel_left_eq] at hp
      simp only [List.cons_append, List.cons.injEq] at hp
      exact absurd hp.1 (by decide)
    · obtain ⟨b1, b2, b3, b4, cnt, th, rfl, _⟩ := id hf
      rw [hr, List.append_assoc, List.append_assoc, List.append_cancel_left_eq] at hp
      simp only [List.cons_append, List.cons.injEq] at hp
      obtain ⟨_, rfl, rfl, rfl, rfl, _⟩ := hp
      exact hno ⟨bf, t, hf⟩
  · rfl
  · exfalso
    obtain ⟨b1, b2, b3, b4, cnt, th, rfl, _⟩ := id hf
    have e : b1 = c1 ∧ b2 = c2 ∧ b3 = c3 ∧ b4 = c4 := by
      rcases hk with hk | ⟨v, g, hk⟩
      · have := List.append_cancel_left hk
        simp only [List.cons.injEq, and_true, true_and] at this
        obtain ⟨rfl, rfl, rfl, rfl⟩ := this
        exact ⟨rfl, rfl, rfl, rfl⟩
      · have := congrArg List.length hk
        simp at this
    obtain ⟨rfl, rfl, rfl, rfl⟩ := e
    exact hno ⟨bf, iblt, hf⟩

/-- C52, the other side: a consumer whose filter does not have the size the producer computes from the transmitted
numbers is never served.  Whatever it subscribes to, whatever IBF it holds and whatever the producer has to tell, its
sync Interests change nothing and are neither answered nor kept. -/
theorem c52_unserved (pcfg : Cfg) (ccfg : CCfg) (bf0 : Bloom) (c : Component) (s s' : Cons) (n : Name) (lt : Nat)
    (e1 : ccfg.syncPrefix = pcfg.syncPrefix) (e2 : ccfg.libm = pcfg.libm)
    (hc : ccfg.bfCount < 2 ^ 32) (hb : freshFilter ccfg = .ok bf0) (hz : SizedBf bf0) (hs : Cons.Reach ccfg s)
    (th : Nat) (hth : ccfg.libm.toThousandths ccfg.bfFpp = some th) (hth2 : th < 2 ^ 64) (hi : s.iblt = [c])
    (hne : ∀ k m, optimalParams ccfg.libm ccfg.bfCount (ccfg.libm.ofThousandths th) = .ok (k, m) → m / 8 ≠ bf0.bits.length)
    (h : s.sendSyncInterest ccfg = .ok s') (hl : s'.log = s.log ++ [.interest n lt])
    (P P' : Part) (hP : Part.Reach pcfg P) (nonce : Nat) (hst : Part.step pcfg P (.recvInterest ⟨n, lt, nonce⟩) = .ok P') :
    P' = P := by
  obtain ⟨c1, c2, c3, hn, h1, h2, h3⟩ := hs.moment.sync_name hc hb hz hth hth2 hi h hl
  rw [e1] at hn
  subst hn
  refine unread_ignored hP ?_ hst
  rintro ⟨bf, t', b1, b2, b3, b4, count, fpp, hn', r1, r2, r3, _⟩
  have := List.append_cancel_left hn'
  simp only [List.cons.injEq, and_true, true_and] at this
  obtain ⟨rfl, rfl, rfl, rfl⟩ := this
  rw [h1] at r1; rw [h2] at r2
  cases r1; cases r2
  rw [Nat.mod_eq_of_lt (by omega), ← e2] at r3
  unfold Bloom.ofComponent at r3
  obtain ⟨bf1, r4, r5⟩ := Res.bind_eq_ok.mp r3
  unfold Bloom.new at r4
  obtain ⟨⟨k, m⟩, r6, r7⟩ := Res.bind_eq_ok.mp r4
  simp only [Res.ok.injEq] at r7
  split at r5
  · cases r5
  · rename_i hx
    rw [← r7] at hx
    exact hne k m r6 (by rw [← h3]; exact (not_not.mp hx).symm)

/-- Non-vacuity for C52: a consumer made with the probability 0.0019 has a table of 10 bytes, the producer computes one of
11, and so it ignores the sync Interest although it has published /a twice; it answers the same Interest with a table of 11. -/
example : ((Part.run coarseCfg (Part.init coarseCfg) [.addUserNode pA, .publishName pA (some 2)]).get?.bind fun P =>
      (Part.step coarseCfg P (.recvInterest ⟨nameOf [115] ++ [SYNC, ⟨8, [6]⟩, ⟨8, [1]⟩, ⟨8, List.replicate 10 255⟩,
        ⟨8, List.replicate 72 0⟩], 1000, 1⟩)).get?.bind fun P1 =>
      (Part.step coarseCfg P (.recvInterest ⟨nameOf [115] ++ [SYNC, ⟨8, [6]⟩, ⟨8, [1]⟩, ⟨8, List.replicate 11 255⟩,
        ⟨8, List.replicate 72 0⟩], 1000, 1⟩)).get?.map fun P2 =>
      (P1.log.length, P1.pending.length, P2.log.length))
    = some (0, 0, 1) := by decide +kernel

end PSync
