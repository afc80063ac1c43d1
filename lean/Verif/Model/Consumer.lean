import Verif.Model.Partial
/-!
`psync::Consumer`: PSync/consumer.hpp, PSync/consumer.cpp.
-/
namespace PSync

/-- Options (PSync/consumer.hpp Consumer::Options: bfCount, bfFalsePositive, helloInterestLifetime, syncInterestLifetime)
and environment of a consumer; `jitter n` is the n-th draw of `m_rangeUniformRandom` (PSync/consumer.cpp:42). -/
structure CCfg where
  syncPrefix : Name
  bfCount : Nat
  bfFpp : Double
  helloLifetime : Nat
  syncLifetime : Nat
  jitter : Nat → Nat
  libm : Libm
  extraSalt : Nat → U32
  /-- how many ms after its deadline the scheduler may run a timer, at the latest -/
  lag : Nat := 0

/-- What a scheduled event of the consumer does when it runs: `sendHelloInterest()`, PSync/consumer.cpp:151, or
`sendSyncInterest()`, PSync/consumer.cpp:252. -/
inductive CTimer where
  | hello | sync
  deriving DecidableEq, Repr

/-- PSync/consumer.hpp members.  `subs` is the ordered set m_subscriptionList.  Fetchers: `none` = null
pointer, `some active`. -/
structure Cons where
  iblt : Name
  helloDataName : Name
  syncDataName : Name
  contentType : ContentType
  bloom : Bloom
  prefixes : NMap Nat
  subs : NMap Unit
  helloFetcher : Option Bool
  syncFetcher : Option Bool
  timers : List (Nat × CTimer)
  now : Nat
  draws : Nat
  log : List Out
  /-- How many fetchers still run although no member points to them: a SegmentFetcher keeps itself alive and calls back
  until it completes, fails or is stopped. -/
  orphans : Nat := 0
  deriving DecidableEq, Repr

/-- `fetcher->stop()` if the pointer is not null, PSync/consumer.cpp:107-108, 112-113, 124-126, 210-212. -/
def stopFetch (f : Option Bool) : Option Bool := f.map fun _ => false

/-- How many fetchers are left running when a fetcher pointer is overwritten, reset or destroyed. -/
def leftRunning (f : Option Bool) : Nat := if f = some true then 1 else 0

@[simp] theorem leftRunning_stopFetch (f : Option Bool) : leftRunning (stopFetch f) = 0 := by
  cases f <;> rfl

namespace Cons

/-- An observable effect (callback or Interest) is appended to the log. -/
def emit (s : Cons) (o : Out) : Cons := { s with log := s.log ++ [o] }

/-- PSync/consumer.cpp:34-35 -/
def helloPrefix (cfg : CCfg) : Name := cfg.syncPrefix ++ [HELLO]
/-- PSync/consumer.cpp:35 -/
def syncPrefixName (cfg : CCfg) : Name := cfg.syncPrefix ++ [SYNC]

/-- PSync/consumer.hpp:133-137 `isSubscribed`. -/
def isSubscribed (s : Cons) (p : Name) : Bool := (s.subs.find p).isSome

/-- PSync/consumer.hpp:139-147 `getSeqNo`. -/
def getSeqNo (s : Cons) (p : Name) : Option Nat := s.prefixes.find p

/-- PSync/consumer.cpp:61-79 `addSubscription`. -/
def addSubscription (s : Cons) (p : Name) (seq : Nat) (cb : Bool) : Res (Bool × Cons) :=
  match s.prefixes.find p with
  | some _ => .ok (false, s)
  | none =>
    Res.bind (s.bloom.insert p) fun bf =>
    let s := { s with prefixes := s.prefixes.set p (seq % U64), subs := s.subs.set p (), bloom := bf }
    .ok (true, if cb && decide (seq % U64 ≠ 0) then
                 s.emit (.update [⟨p, seq % U64, seq % U64, 0⟩]) else s)

/-- PSync/consumer.cpp:81-99 `removeSubscription`. -/
def removeSubscription (s : Cons) (p : Name) : Res (Bool × Cons) :=
  if !s.isSubscribed p then .ok (false, s)
  else
    let subs := s.subs.erase p
    Res.bind (foldRes Bloom.insert s.bloom.clear subs.keys) fun bf =>
    .ok (true, { s with prefixes := s.prefixes.erase p, subs := subs, bloom := bf })

/-- PSync/consumer.cpp:101-116 `stop`. -/
def stop (s : Cons) : Cons :=
  { s with timers := [], syncFetcher := none, helloFetcher := none
           orphans := s.orphans + leftRunning (stopFetch s.syncFetcher) + leftRunning (stopFetch s.helloFetcher) }

/-- PSync/consumer.cpp:118-153 `sendHelloInterest`. -/
def sendHelloInterest (cfg : CCfg) (s : Cons) : Cons :=
  { s with helloFetcher := some true
           orphans := s.orphans + leftRunning (stopFetch s.helloFetcher)
           log := s.log ++ [.interest (helloPrefix cfg) cfg.helloLifetime] }

/-- PSync/consumer.cpp:192-255 `sendSyncInterest`. -/
def sendSyncInterest (cfg : CCfg) (s : Cons) : Res Cons :=
  if s.iblt = [] then .ub .assertion
  else
    Res.bind (s.bloom.toComponents cfg.libm) fun cs =>
    .ok { s with syncFetcher := some true
                 orphans := s.orphans + leftRunning (stopFetch s.syncFetcher)
                 log := s.log ++ [.interest (syncPrefixName cfg ++ cs ++ s.iblt) cfg.syncLifetime] }

/-- API calls, also the ones made from inside callbacks. -/
inductive Call where
  | addSubscription (p : Name) (seq : Nat) (cb : Bool)
  | removeSubscription (p : Name)
  | sendHello
  | sendSync
  | stop
  deriving DecidableEq, Repr

/-- PSync/consumer.cpp:61-255, one API call.  Calls the application makes inside the update callback that
addSubscription may invoke (line 75) are the calls that follow it: invoking the callback is the last thing
addSubscription does. -/
def call (cfg : CCfg) (s : Cons) : Call → Res Cons
  | .addSubscription p seq cb => Res.bind (s.addSubscription p seq cb) fun r => .ok r.2
  | .removeSubscription p => Res.bind (s.removeSubscription p) fun r => .ok r.2
  | .sendHello => .ok (s.sendHelloInterest cfg)
  | .sendSync => s.sendSyncInterest cfg
  | .stop => .ok s.stop

/-- `content.getPrefix(-1)` and `content.get(content.size() - 1).toNumber()`,
PSync/consumer.cpp:172-173,268-269. -/
def splitName (n : Name) : Res (Name × Nat) :=
  Res.bind (n.getFromEnd 1) fun last =>
  Res.bind last.toNumber fun seq => .ok (Name.dropLast n 1, seq)

/-- One iteration of the loop PSync/consumer.cpp:171-182. -/
def helloStep (subs : NMap Unit) (acc : NMap Nat × List MissingDataInfo × NMap Nat) (n : Name) :
    Res (NMap Nat × List MissingDataInfo × NMap Nat) :=
  Res.bind (splitName n) fun (p, seq) =>
  let (prefixes, updates, avail) := acc
  let avail := avail.emplace p seq
  if (subs.find p).isSome then
    let cur := (prefixes.find p).getD 0
    let prefixes := prefixes.emplace p 0
    if seq > cur then
      .ok (prefixes.set p seq, updates ++ [⟨p, (cur + 1) % U64, seq, 0⟩], avail)
    else .ok (prefixes, updates, avail)
  else .ok (prefixes, updates, avail)

/-- PSync/consumer.cpp:155-190 `onHelloData`.  `acts1`/`acts2`: calls made by the application inside
the hello and the update callback. -/
def onHelloData (cfg : CCfg) (s : Cons) (buf : Bytes) (acts1 acts2 : List Call) : Res Cons :=
  let s := { s with iblt := s.helloDataName.drop (s.helloDataName.length - 1) }
  Res.bind (StateMsg.wireDecode buf) fun st =>
  Res.bind (foldRes (helloStep s.subs) (s.prefixes, [], []) st.content) fun r =>
  let s := { s with prefixes := r.1 }
  Res.bind (foldRes (call cfg) (s.emit (.hello r.2.2)) acts1) fun s =>
  if r.2.1.isEmpty then .ok s
  else foldRes (call cfg) (s.emit (.update r.2.1)) acts2

/-- One iteration of the loop PSync/consumer.cpp:266-277. -/
def syncStep (acc : NMap Nat × List MissingDataInfo) (n : Name) : Res (NMap Nat × List MissingDataInfo) :=
  Res.bind (splitName n) fun (p, seq) =>
  let (prefixes, updates) := acc
  match prefixes.find p with
  | none => .ok (prefixes.set p seq, updates ++ [⟨p, 1, seq, 0⟩])
  | some cur =>
    if seq > cur then .ok (prefixes.set p seq, updates ++ [⟨p, (cur + 1) % U64, seq, 0⟩])
    else .ok (prefixes, updates)

/-- PSync/consumer.cpp:257-286 `onSyncData`. -/
def onSyncData (cfg : CCfg) (s : Cons) (buf : Bytes) (acts : List Call) : Res Cons :=
  let s := { s with iblt := s.syncDataName.drop (s.syncDataName.length - 1) }
  Res.bind (StateMsg.wireDecode buf) fun st =>
  Res.bind (foldRes syncStep (s.prefixes, []) st.content) fun r =>
  let s := { s with prefixes := r.1 }
  Res.bind (if r.2.isEmpty then .ok s else foldRes (call cfg) (s.emit (.update r.2)) acts) fun s =>
  s.sendSyncInterest cfg

/-- What can happen to a consumer: API calls of the application, events of its two SegmentFetchers
(PSync/consumer.cpp:133-152, 219-254), passing of time and timers of `m_scheduler`. -/
inductive Op where
  | call (c : Call)
  | helloSegment (d : Data)                                   -- hello fetcher validated a segment
  | helloComplete (buf : Bytes) (acts1 acts2 : List Call)
  | helloError
  | syncSegment (d : Data)                                    -- sync fetcher validated a segment
  | syncComplete (buf : Bytes) (acts : List Call)
  | syncError (timeout : Bool)
  | tick (t : Nat)
  | fire                                                      -- the next due timer runs
  deriving DecidableEq, Repr

/-- Remove the first due timer. -/
def takeDue (now : Nat) : List (Nat × CTimer) → Option (CTimer × List (Nat × CTimer))
  | [] => none
  | (d, k) :: ts =>
    if d ≤ now then some (k, ts)
    else match takeDue now ts with
      | none => none
      | some (k', ts') => some (k', (d, k) :: ts')

/-- One event.  Events of a fetcher that is not running (stopped, completed, failed or never started) do nothing;
so do timers that are not due. -/
def step (cfg : CCfg) (s : Cons) : Op → Res Cons
  | .call c => call cfg s c
  | .helloSegment d =>            -- PSync/consumer.cpp:137-141
    if s.helloFetcher = some true then
      .ok (if d.finalBlock.isSome then { s with helloDataName := Name.dropLast d.name 2 } else s)
    else .ok s
  | .helloComplete buf a1 a2 =>   -- PSync/consumer.cpp:143-145
    if s.helloFetcher = some true then
      onHelloData cfg { s with helloFetcher := some false } buf a1 a2
    else .ok s
  | .helloError =>                -- PSync/consumer.cpp:147-152
    if s.helloFetcher = some true then
      .ok { s with helloFetcher := some false
                   timers := s.timers ++ [(s.now + cfg.jitter s.draws, .hello)]
                   draws := s.draws + 1 }
    else .ok s
  | .syncSegment d =>             -- PSync/consumer.cpp:223-233
    if s.syncFetcher = some true then
      let s := if d.finalBlock.isSome then
        { s with syncDataName := Name.dropLast d.name 2, contentType := d.contentType } else s
      .ok (if s.contentType = .nack then s.sendHelloInterest cfg else s)
    else .ok s
  | .syncComplete buf acts =>     -- PSync/consumer.cpp:235-242
    if s.syncFetcher = some true then
      let s := { s with syncFetcher := some false }
      if s.contentType = .nack then .ok { s with contentType := .blob }
      else onSyncData cfg s buf acts
    else .ok s
  | .syncError timeout =>         -- PSync/consumer.cpp:244-254
    if s.syncFetcher = some true then
      let s := { s with syncFetcher := some false }
      if timeout then s.sendSyncInterest cfg
      else .ok { s with timers := s.timers ++ [(s.now + cfg.jitter s.draws, .sync)]
                        draws := s.draws + 1 }
    else .ok s
  | .tick t => .ok (if s.now ≤ t && s.timers.all (fun e => decide (t ≤ e.1 + cfg.lag)) then { s with now := t } else s)
  | .fire =>
    match takeDue s.now s.timers with
    | none => .ok s
    | some (.hello, ts) => .ok (sendHelloInterest cfg { s with timers := ts })
    | some (.sync, ts) => sendSyncInterest cfg { s with timers := ts }

/-- A sequence of events. -/
def run (cfg : CCfg) (s : Cons) (ops : List Op) : Res Cons := foldRes (step cfg) s ops

/-- PSync/consumer.cpp:30-45 constructor. -/
def init (cfg : CCfg) : Res Cons :=
  Res.bind (Bloom.new cfg.libm cfg.extraSalt cfg.bfCount cfg.bfFpp) fun bf =>
  .ok { iblt := [], helloDataName := [], syncDataName := [], contentType := .blob, bloom := bf,
        prefixes := [], subs := [], helloFetcher := none, syncFetcher := none, timers := [], now := 0,
        draws := 0, log := [] }

/-- States a Consumer can be in. -/
def Reach (cfg : CCfg) (s : Cons) : Prop := ∃ s0 ops, init cfg = .ok s0 ∧ run cfg s0 ops = .ok s

end Cons
end PSync
