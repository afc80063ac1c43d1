import Verif.Model.Consumer
/-!
What happens after a PSync object has been destroyed while the Face it used, and the io_context of the Face, live on.

The timers of an object end with it: `m_scheduler` is a member of every class (PSync/producer-base.hpp:157,
PSync/consumer.hpp:195, PSync/segment-publisher.hpp:64) and ndn::Scheduler cancels its events when it is destroyed.
What can remain are Interest filters and running SegmentFetchers: their callbacks hold a plain `this`.
The model takes up after the forwarder has answered the prefix registration of a producer.
-/
namespace PSync

/-- What the Face still holds that calls into the destroyed object. -/
structure Left where
  /-- how many SegmentFetchers with callbacks into the object run -/
  fetchers : Nat
  /-- the prefixes of the Interest filters with callbacks into the object -/
  filters : List Name
  deriving DecidableEq, Repr

/-- PSync/full-producer.cpp:69-74 destructor, then the members.  `m_registeredPrefix`
(PSync/full-producer.hpp:228) is scoped: its destructor removes the Interest filter set at PSync/full-producer.cpp:43. -/
def Full.destroy (s : Full) : Left :=
  let s := s.stopFetcher
  { fetchers := (s.orphans ++ s.running).length, filters := [] }

/-- The implicit destructor of PartialProducer.  `m_registeredPrefix` (PSync/partial-producer.hpp:133) is scoped, but
belongs to the registration only: the handles of the two Interest filters, PSync/partial-producer.cpp:44-47, are not kept,
and dropping such a handle does not remove its filter. -/
def Part.destroy (cfg : Cfg) (_ : Part) : Left :=
  { fetchers := 0, filters := [cfg.syncPrefix ++ [HELLO], cfg.syncPrefix ++ [SYNC]] }

/-- The implicit destructor of Consumer: the pointers PSync/consumer.hpp:222-223 are dropped, `stop()` is not called. -/
def Cons.destroy (s : Cons) : Left :=
  { fetchers := s.orphans + leftRunning s.helloFetcher + leftRunning s.syncFetcher, filters := [] }

/-- What can happen on the Face. -/
inductive FaceEvent where
  | fetcher (k : Nat)        -- the k-th of the fetchers left running gets a segment, completes or fails
  | interest (i : Interest)  -- an Interest arrives
  deriving DecidableEq, Repr

/-- An event on the Face runs code of the destroyed object when it concerns something left behind: the callbacks at
PSync/consumer.cpp:137-152, 223-254, PSync/full-producer.cpp:147-173, PSync/partial-producer.cpp:44-47. -/
def Left.event (l : Left) : FaceEvent → Res Unit
  | .fetcher k => if k < l.fetchers then .ub .useAfterFree else .ok ()
  | .interest i => if l.filters.any (fun p => p.isPrefixOf i.name) then .ub .useAfterFree else .ok ()

/-- A sequence of events on the Face. -/
def Left.run (l : Left) (es : List FaceEvent) : Res Unit := foldRes (fun _ e => l.event e) () es

end PSync
