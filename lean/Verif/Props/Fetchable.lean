import Verif.Proofs.Fetchable
import Verif.Props.SegPub
import Verif.Props.FullSync
import Verif.Props.PartialSync
/-!
C79: every segment of a reply can be fetched while the reply is fresh.
-/
namespace PSync
open Spec

theorem packetsSince_eq (replies : List (Name × Bytes × Nat)) (k : Nat) : packetsSince replies k = packetsFrom replies k := by
  unfold packetsSince packetsFrom
  congr 1
  refine List.map_congr_left fun e _ => ?_
  rw [c53_count]

/-- C79, full sync: a reply (number `k`, published under `name` on event `op`) stays available.  Let any events follow.  As
long as its freshness is not over, no more than `imsLimit` packets were published from it on, and no other reply has a
name (with version) that is a prefix of this one's, each of its segments is found in the store under its own name, and an
Interest for it is answered with it and nothing else. -/
theorem c79_full (cfg : Cfg) (hlim : cfg.imsLimit < 2 ^ 64) (r r1 s : Full) (hr : Full.Reach cfg r) (op : Full.Op)
    (h1 : Full.step cfg r op = .ok r1) (later : List Full.Op) (h2 : Full.run cfg r1 later = .ok s)
    (k : Nat) (name : Name) (buf : Bytes) (fr : Nat) (hk : r.replies.length ≤ k) (he : r1.replies[k]? = some (name, buf, fr))
    (hroom : packetsSince s.replies k ≤ cfg.imsLimit) (ht : s.now < r.now + fr)
    (hn : ∀ (j : Nat) (e : Name × Bytes × Nat), s.replies[j]? = some e → j ≠ k →
      ¬ e.1.appendVersion (cfg.version j) <+: name.appendVersion (cfg.version k)) :
    ∃ segs, IsSegmentation (name.appendVersion (cfg.version k)) buf fr segs ∧ ∀ d ∈ segs,
      s.pub.replyFromStore d.name = some d ∧
      ∀ i : Interest, i.name = d.name → cfg.syncPrefix <+: i.name →
        Full.step cfg s (.recvInterest i) = .ok { s with log := s.log ++ [.data d] } := by
  refine ⟨_, segmentData_spec _ _ _, fun d hd => ?_⟩
  obtain ⟨pre, hm⟩ := Full.reach_micro hr
  have hle : ∀ ops, (Full.runRules cfg ops).Le (Full.rules cfg Full.knownP (fun _ => True) (fun _ _ => True) (fun _ => True)) :=
    fun _ => Full.rules_le (fun _ _ _ h => h) (fun _ _ => trivial) (fun _ _ _ => trivial) (fun _ _ => trivial)
  have hm0 := hm.mono (hle _)
  have hrun : Full.run cfg r (op :: later) = .ok s := by
    unfold Full.run at h2 ⊢
    simp only [foldRes, h1, Res.ok_bind]
    exact h2
  have hm1 := (Full.run_micro (Full.reach_inv hr) hrun).mono (hle _)
  have hm2 : Micros _ r1.view s.view := (Full.run_micro ((Full.step_steps h1).inv (Full.reach_inv hr)) h2).mono (hle _)
  have hrec := hm0.recorded ⟨by simp [SegPub.empty], by simp⟩
  have htr := hm0.timersRecorded (by intro t ht; simp [SegPub.empty] at ht)
  have hes : s.view.replies[k]? = some (name, buf, fr) := by
    obtain ⟨t, ht⟩ := hm2.replies
    rw [← ht, List.getElem?_append_left (show k < r1.view.replies.length from (List.getElem?_eq_some_iff.mp he).1)]
    exact he
  rw [packetsSince_eq] at hroom
  have hp := hm1.present hrec htr k hk name buf fr hes hroom ht hn
  have hf := hp.found (hm1.recorded hrec) hes hroom hlim hn hd
  refine ⟨hf, fun i hi hpre => ?_⟩
  have hf' : s.pub.replyFromStore d.name = some d := hf
  have e1 : Full.onSyncInterest cfg s i false = .ok (s.emit (.data d)) := by simp only [Full.onSyncInterest, hi, hf']
  simp only [Full.step, List.isPrefixOf_iff_prefix.mpr hpre, if_true]
  exact e1

/-- C79, partial sync: the same for the replies to hello and sync Interests. -/
theorem c79_partial_sync (cfg : Cfg) (hlim : cfg.imsLimit < 2 ^ 64) (r r1 s : Part) (hr : Part.Reach cfg r) (op : Part.Op)
    (h1 : Part.step cfg r op = .ok r1) (later : List Part.Op) (h2 : Part.run cfg r1 later = .ok s)
    (k : Nat) (name : Name) (buf : Bytes) (fr : Nat) (hk : r.replies.length ≤ k) (he : r1.replies[k]? = some (name, buf, fr))
    (hroom : packetsSince s.replies k ≤ cfg.imsLimit) (ht : s.now < r.now + fr)
    (hn : ∀ (j : Nat) (e : Name × Bytes × Nat), s.replies[j]? = some e → j ≠ k →
      ¬ e.1.appendVersion (cfg.version j) <+: name.appendVersion (cfg.version k)) :
    ∃ segs, IsSegmentation (name.appendVersion (cfg.version k)) buf fr segs ∧ ∀ d ∈ segs,
      s.pub.replyFromStore d.name = some d ∧
      ∀ i : Interest, i.name = d.name → cfg.syncPrefix ++ [HELLO] <+: i.name ∨ cfg.syncPrefix ++ [SYNC] <+: i.name →
        Part.step cfg s (.recvInterest i) = .ok { s with log := s.log ++ [.data d] } := by
  refine ⟨_, segmentData_spec _ _ _, fun d hd => ?_⟩
  have hle : ∀ ops, (Part.runRules cfg ops).Le (Part.rules cfg (Part.anyData cfg) (fun _ => True) (fun _ _ => True)) :=
    fun _ => Part.rules_le (fun _ _ _ h => h) (fun _ _ => trivial) (fun _ _ _ => trivial)
  have hm0 := Part.reach_micro hr
  have hrun : Part.run cfg r (op :: later) = .ok s := by
    unfold Part.run at h2 ⊢
    simp only [foldRes, h1, Res.ok_bind]
    exact h2
  have hm1 := (Part.run_micro (Part.reach_parked hr) hrun).mono (hle _)
  have hm2 : Micros _ r1.view s.view := (Part.run_micro (Part.step_parked (Part.reach_parked hr) h1) h2).mono (hle _)
  have hrec := hm0.recorded ⟨by simp [SegPub.empty], by simp⟩
  have htr := hm0.timersRecorded (by intro t ht; simp [SegPub.empty] at ht)
  have hes : s.view.replies[k]? = some (name, buf, fr) := by
    obtain ⟨t, ht⟩ := hm2.replies
    rw [← ht, List.getElem?_append_left (show k < r1.view.replies.length from (List.getElem?_eq_some_iff.mp he).1)]
    exact he
  rw [packetsSince_eq] at hroom
  have hp := hm1.present hrec htr k hk name buf fr hes hroom ht hn
  have hf := hp.found (hm1.recorded hrec) hes hroom hlim hn hd
  refine ⟨hf, fun i hi hpre => ?_⟩
  have hf' : s.pub.replyFromStore d.name = some d := hf
  have e1 : Part.onHelloInterest cfg s i = .ok (s.emit (.data d)) := by simp only [Part.onHelloInterest, hi, hf']
  have e2 : Part.onSyncInterest cfg s i = .ok (s.emit (.data d)) := by simp only [Part.onSyncInterest, hi, hf']
  simp only [Part.step]
  split
  · exact e1
  · rename_i hno
    rcases hpre with hpre | hpre
    · exact absurd (List.isPrefixOf_iff_prefix.mpr hpre) hno
    · rw [if_pos (List.isPrefixOf_iff_prefix.mpr hpre)]
      exact e2

/-! ### Non-vacuity -/

/-- A prefix so long that a reply naming it takes two packets. -/
def pLong : Name := [⟨8, List.replicate 4500 97#8⟩]

/-- What is stored, what was sent (name size, content size), how many packets were published, the time. -/
def heldBy (s : Full) : List Nat × List Nat × Nat × Nat :=
  (s.pub.store.map (·.content.length), (dataOf s.log).map (·.content.length), packetsSince s.replies 0, s.now)

/-- The same for partial sync. -/
def heldByPart (s : Part) : List Nat × List Nat × Nat × Nat :=
  (s.pub.store.map (·.content.length), (dataOf s.log).map (·.content.length), packetsSince s.replies 0, s.now)

/-- The name of the reply to `emptyInterest`. -/
def longReply : Name := emptyInterest.name.appendVersion 1

/-- An Interest is answered with a reply of two segments when the long name is published; 999 ms later the second segment is fetched.
At 1000 ms it is gone. -/
def longScript : List Full.Op :=
  [.call (.addUserNode pLong), .recvInterest emptyInterest, .call (.publishName pLong (some 1)), .tick 601, .fireSync, .tick 900,
   .tick 999, .recvInterest ⟨longReply.appendSegment 1, 1000, 9⟩, .tick 1000, .fireStore]

set_option maxRecDepth 8000 in
/-- Non-vacuity for `c79_full`. -/
example : ((Full.init sampleCfg).bind fun s => Full.run sampleCfg s (longScript.take 8)).get?.map heldBy =
      some ([4400, 115], [4400, 115], 2, 999) ∧
    ((Full.init sampleCfg).bind fun s => Full.run sampleCfg s longScript).get?.map heldBy =
      some ([], [4400, 115], 2, 1000) := by
  constructor <;> decide +kernel

set_option maxRecDepth 8000 in
/-- Non-vacuity for `c79_partial_sync`: the second segment of a hello reply. -/
example : (partRun [.addUserNode pLong, .publishName pLong none, .recvInterest ⟨nameOf [115] ++ [HELLO], 1000, 1⟩]).get?.map
      (fun s => (heldByPart s, s.pub.store.map (·.name.length))) = some (([4400, 115], [4400], 2, 0), [5, 5]) := by
  decide +kernel

end PSync
