import Verif.Proofs.PubSubFetch
import Verif.Props.ConsumerWire
/-!
C51, the part on Data that comes after a nack.
-/
namespace PSync
open Spec

namespace Cons

/-- No event but the arrival of a nack makes the consumer expect a nack. -/
theorem step_kind {cfg : CCfg} {s s' : Cons} {op : Op} (h : step cfg s op = .ok s')
    (hop : ∀ d, op = .syncSegment d → d.contentType ≠ .nack) (hs : s.contentType ≠ .nack) : s'.contentType ≠ .nack := by
  cases op with
  | call c => rw [(went_call (show call cfg s c = .ok s' from h)).kind]; exact hs
  | helloSegment d =>
    simp only [step] at h
    split at h
    · cases h; split <;> exact hs
    · cases h; exact hs
  | helloComplete buf a1 a2 =>
    simp only [step] at h
    split at h
    · obtain ⟨st, r, _, _, hw⟩ := onHelloData_went h
      rw [hw.kind]; exact hs
    · cases h; exact hs
  | helloError =>
    simp only [step] at h
    split at h <;> cases h <;> exact hs
  | syncSegment d =>
    simp only [step] at h
    split at h
    · cases h
      split <;> first | exact hs | exact hop d rfl | (split <;> first | exact hs | exact hop d rfl)
    · cases h; exact hs
  | syncComplete buf acts =>
    simp only [step] at h
    split at h
    · obtain ⟨st, r, _, _, hw⟩ := onSyncData_went h
      rw [hw.kind]; exact hs
    · cases h; exact hs
  | syncError t =>
    simp only [step] at h
    split at h
    · split at h
      · rw [(went_sendSync h).kind]; exact hs
      · cases h; exact hs
    · cases h; exact hs
  | tick t =>
    simp only [step, Res.ok.injEq] at h
    subst h
    split <;> exact hs
  | fire =>
    simp only [step] at h
    split at h
    · cases h; exact hs
    · cases h; exact hs
    · rw [(went_sendSync h).kind]; exact hs

end Cons

/-- C51, later Data, with or without FinalBlockId: when the fetch of a nack has completed (as it does at once with the nacks of
PSync producers, which have one segment), whatever happens then other than another nack, sync Data that is not a nack is not taken
for one: no Interest is sent when it arrives. -/
theorem c51_completed (cfg : CCfg) (s s1 s2 s3 : Cons) (hf : s.syncFetcher = some true) (hk : s.contentType = .nack) (buf : Bytes)
    (acts : List Cons.Call) (h1 : Cons.step cfg s (.syncComplete buf acts) = .ok s1) (ops : List Cons.Op)
    (hops : ∀ d, Cons.Op.syncSegment d ∈ ops → d.contentType ≠ .nack) (h2 : Cons.run cfg s1 ops = .ok s2) (d : Data)
    (hd : d.contentType ≠ .nack) (h3 : Cons.step cfg s2 (.syncSegment d) = .ok s3) : s3.log = s2.log := by
  have k1 : s1.contentType ≠ .nack := by
    simp only [Cons.step, hf, if_true, hk, Res.ok.injEq] at h1
    subst h1; simp
  have k2 : s2.contentType ≠ .nack := foldRes_inv (P := fun s : Cons => s.contentType ≠ .nack) ops
    (fun a op b ho ha hst => Cons.step_kind hst (fun d hd => hops d (hd ▸ ho)) ha) k1 h2
  simp only [Cons.step] at h3
  split at h3
  · split at h3
    · cases h3; rfl
    · cases h3; rfl
  · cases h3; rfl

set_option maxRecDepth 100000 in
/-- Non-vacuity for C51: a nack, its completion, the hello, another sync Interest, and then Data without FinalBlockId. -/
example : ((consRun (subscribed ++ [.syncSegment (ibfData (nameOf [115]) .nack []), .syncComplete [] [], .call .sendSync,
      .syncSegment { ibfData (nameOf [115]) .blob [] with finalBlock := none }])).get?.map fun s => s.log.length) =
    ((consRun (subscribed ++ [.syncSegment (ibfData (nameOf [115]) .nack []), .syncComplete [] [], .call .sendSync])).get?.map
      fun s => s.log.length) ∧
    ((consRun (subscribed ++ [.syncSegment (ibfData (nameOf [115]) .nack [])])).get?.map fun s =>
      decide (s.contentType = .nack) && decide (s.syncFetcher = some true)) = some true := by decide +kernel

end PSync
