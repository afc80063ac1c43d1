import Verif.Model.Consumer
/-!
Spec for C107: two consumers with the same subscriptions.
-/
namespace PSync.Spec

/-- Both results are of the same kind: both fail in the same way, or both are values that are related by `R`. -/
def BothDo {α β : Type} (R : α → β → Prop) : Res α → Res β → Prop
  | .ok a, .ok b => R a b
  | .throw e, .throw e' => e = e'
  | .ub u, .ub u' => u = u'
  | .hang, .hang => True
  | _, _ => False

/-- The two consumers have the same subscriptions and numbers, last took their IBF and names from the same Data, and have the same fetches
running.  How they came there, their clocks, timers and random numbers may differ. -/
structure Alike (s s' : Cons) : Prop where
  subs : ∀ p, s.isSubscribed p = s'.isSubscribed p
  seqs : ∀ p, s.getSeqNo p = s'.getSeqNo p
  iblt : s.iblt = s'.iblt
  helloName : s.helloDataName = s'.helloDataName
  syncName : s.syncDataName = s'.syncDataName
  contentType : s.contentType = s'.contentType
  helloFetch : s.helloFetcher = s'.helloFetcher
  syncFetch : s.syncFetcher = s'.syncFetcher

end PSync.Spec
