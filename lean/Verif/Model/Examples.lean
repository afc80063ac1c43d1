import Verif.Model.Consumer
import Verif.Model.Full
/-!
The example applications: examples/consumer.cpp, examples/producer.cpp, examples/full-sync.cpp.

Not modelled: the command line, logging other than the numbers printed, and how a name is made of the user
prefix and an index (the names are a parameter).
-/
namespace PSync

/-- The loop `for (uint64_t i = low; i <= high; i++)`, examples/consumer.cpp:89-92 and examples/full-sync.cpp:89-91: the
values it runs through.  `hang`: it is still running after `fuel` rounds. -/
def countUp : Nat → Nat → Nat → Res (List Nat)
  | 0, _, _ => .hang
  | fuel + 1, i, high =>
    if i ≤ high then Res.bind (countUp fuel ((i + 1) % U64) high) fun l => .ok (i :: l)
    else .ok []

/-- `processSyncUpdate`, examples/consumer.cpp:85-94 and examples/full-sync.cpp:85-93: what is printed.  A loop that has
not ended after highSeq + 2 rounds counts as endless. -/
def printUpdates : List MissingDataInfo → Res (List (Name × Nat))
  | [] => .ok []
  | u :: us =>
    Res.bind (countUp (u.highSeq + 2) u.lowSeq u.highSeq) fun l =>
    Res.bind (printUpdates us) fun r => .ok (l.map (fun i => (u.pfx, i)) ++ r)

/-- The updates passed to the update callback. -/
def updatesOf (log : List Out) : List MissingDataInfo :=
  (log.map (fun o => match o with
    | .update us => us
    | _ => [])).flatten

/-- examples/consumer.cpp:38-51: the number of subscriptions asked for and the other options of the consumer.
`shuffle k` is the order std::shuffle (line 69) leaves in the k-th hello callback. -/
structure ConsAppCfg where
  cc : CCfg
  nSub : Int
  shuffle : Nat → List Name → List Name

/-- examples/consumer.cpp:44: `opts.bfCount = m_nSub`, an int assigned to a uint32_t. -/
def ConsAppCfg.consumer (cfg : ConsAppCfg) : CCfg := { cfg.cc with bfCount := (cfg.nSub % 4294967296).toNat }

/-- The application: its consumer, the number of hello callbacks so far, and what it has printed. -/
structure ConsApp where
  cons : Cons
  hellos : Nat
  printed : List (Name × Nat)
  deriving DecidableEq, Repr

namespace ConsApp

/-- examples/consumer.cpp:72-77: the loop over `sensors[i]`, unchecked, and `it->second`. -/
def picks (avail : NMap Nat) (sensors : List Name) : List Nat → Res (List Cons.Call)
  | [] => .ok []
  | i :: is =>
    match sensors[i]? with
    | none => .ub .outOfBounds
    | some p =>
      match avail.find p with
      | none => .ub .outOfBounds
      | some q => Res.bind (picks avail sensors is) fun r => .ok (.addSubscription p q true :: r)

/-- `afterReceiveHelloData`, examples/consumer.cpp:60-83: the calls made. -/
def helloCalls (cfg : ConsAppCfg) (k : Nat) (avail : NMap Nat) : Res (List Cons.Call) :=
  Res.bind (picks avail (cfg.shuffle k avail.keys) (List.range cfg.nSub.toNat)) fun r => .ok (r ++ [.sendSync])

/-- What the consumer passes to the hello callback, PSync/consumer.cpp:155-183. -/
def helloAvail (s : Cons) (buf : Bytes) : Res (NMap Nat) :=
  Res.bind (StateMsg.wireDecode buf) fun st =>
  Res.bind (foldRes (Cons.helloStep s.subs) (s.prefixes, [], []) st.content) fun r => .ok r.2.2

/-- What can happen to the application: its constructor sends the hello Interest (examples/consumer.cpp:50); all else are
events of the consumer. -/
inductive Op where
  | start
  | helloSegment (d : Data)
  | helloComplete (buf : Bytes)
  | helloError
  | syncSegment (d : Data)
  | syncComplete (buf : Bytes)
  | syncError (timeout : Bool)
  | tick (t : Nat)
  | fire
  deriving DecidableEq, Repr

/-- The event at the consumer, with the calls the application makes during it.  The update callback makes none. -/
def consOp (cfg : ConsAppCfg) (a : ConsApp) : Op → Res Cons.Op
  | .start => .ok (.call .sendHello)
  | .helloSegment d => .ok (.helloSegment d)
  | .helloComplete buf =>
    if a.cons.helloFetcher = some true then
      Res.bind (helloAvail a.cons buf) fun avail =>
      Res.bind (helloCalls cfg a.hellos avail) fun acts => .ok (.helloComplete buf acts [])
    else .ok (.helloComplete buf [.sendSync] [])
  | .helloError => .ok .helloError
  | .syncSegment d => .ok (.syncSegment d)
  | .syncComplete buf => .ok (.syncComplete buf [])
  | .syncError t => .ok (.syncError t)
  | .tick t => .ok (.tick t)
  | .fire => .ok .fire

/-- Whether the event calls the hello callback. -/
def isHello (a : ConsApp) : Op → Bool
  | .helloComplete _ => decide (a.cons.helloFetcher = some true)
  | _ => false

/-- One event.  Printing happens inside the update callback; it makes no calls, so doing it last makes no
difference. -/
def step (cfg : ConsAppCfg) (a : ConsApp) (op : Op) : Res ConsApp :=
  Res.bind (consOp cfg a op) fun o =>
  Res.bind (Cons.step cfg.consumer a.cons o) fun c =>
  Res.bind (printUpdates (updatesOf (c.log.drop a.cons.log.length))) fun out =>
  .ok { cons := c, hellos := if a.isHello op then a.hellos + 1 else a.hellos, printed := a.printed ++ out }

/-- examples/consumer.cpp:38-46: before the hello Interest is sent. -/
def init (cfg : ConsAppCfg) : Res ConsApp := Res.bind (Cons.init cfg.consumer) fun c => .ok ⟨c, 0, []⟩

/-- A sequence of events. -/
def run (cfg : ConsAppCfg) (a : ConsApp) (ops : List Op) : Res ConsApp := foldRes (step cfg) a ops

end ConsApp

/-- Parameters of the two example producers: `stream i` is the name made of the user prefix and `i`
(examples/producer.cpp:47, examples/full-sync.cpp:57), `delay n` the n-th draw of m_uniformRand. -/
structure PubAppCfg where
  pc : Cfg
  stream : Nat → Name
  num : Int
  maxPublish : Int
  delay : Nat → Nat

/-- examples/producer.cpp:42,87: an int assigned to a uint64_t. -/
def PubAppCfg.limit (cfg : PubAppCfg) : Nat := (cfg.maxPublish % 18446744073709551616).toNat

/-- The names the loop `for (int i = 0; i < numDataStreams; i++)` runs through, examples/producer.cpp:46-47 and
examples/full-sync.cpp:56-57. -/
def PubAppCfg.streams (cfg : PubAppCfg) : List Name := (List.range cfg.num.toNat).map cfg.stream

/-- Remove the first due timer. -/
def takeDueName (now : Nat) : List (Nat × Name) → Option (Name × List (Nat × Name))
  | [] => none
  | (d, p) :: ts =>
    if d ≤ now then some (p, ts)
    else match takeDueName now ts with
      | none => none
      | some (p', ts') => some (p', (d, p) :: ts')

/-- examples/producer.cpp: the producer, the scheduled updates, and the updates printed as published (line 72). -/
structure PartApp where
  prod : Part
  timers : List (Nat × Name)
  draws : Nat
  published : List (Name × Nat)
  deriving DecidableEq, Repr

namespace PartApp

/-- `m_scheduler.schedule(...)`, examples/producer.cpp:53-54 and 76-77. -/
def schedule (cfg : PubAppCfg) (a : PartApp) (p : Name) : PartApp :=
  { a with timers := a.timers ++ [(a.prod.now + cfg.delay a.draws, p)], draws := a.draws + 1 }

/-- One round of the loop examples/producer.cpp:46-55. -/
def addStream (cfg : PubAppCfg) (a : PartApp) (p : Name) : Res PartApp :=
  Res.bind (Part.step cfg.pc a.prod (.addUserNode p)) fun s => .ok (schedule cfg { a with prod := s } p)

/-- The constructor, examples/producer.cpp:39-56. -/
def init (cfg : PubAppCfg) : Res PartApp := foldRes (addStream cfg) ⟨Part.init cfg.pc, [], 0, []⟩ cfg.streams

/-- `doUpdate`, examples/producer.cpp:65-79. -/
def doUpdate (cfg : PubAppCfg) (a : PartApp) (p : Name) : Res PartApp :=
  Res.bind (Part.step cfg.pc a.prod (.publishName p none)) fun s =>
  match s.base.getSeqNo p with
  | none => .throw .badOptional
  | some seq =>
    let a := { a with prod := s, published := a.published ++ [(p, seq)] }
    .ok (if seq < cfg.limit then schedule cfg a p else a)

/-- The event is not an API call of the application. -/
def outside : Part.Op → Bool
  | .addUserNode _ | .removeUserNode _ | .publishName _ _ => false
  | _ => true

/-- What can happen to the application: Interests and timers of the producer, or the next due update runs. -/
inductive Op where
  | prod (op : Part.Op)
  | update
  deriving DecidableEq, Repr

/-- One event.  The application makes no API calls but those in doUpdate.  Scheduled updates run at any time from their
deadline on. -/
def step (cfg : PubAppCfg) (a : PartApp) : Op → Res PartApp
  | .prod op =>
    if outside op then Res.bind (Part.step cfg.pc a.prod op) fun s => .ok { a with prod := s } else .ok a
  | .update =>
    match takeDueName a.prod.now a.timers with
    | none => .ok a
    | some (p, ts) => doUpdate cfg { a with timers := ts } p

/-- A sequence of events. -/
def run (cfg : PubAppCfg) (a : PartApp) (ops : List Op) : Res PartApp := foldRes (step cfg) a ops

end PartApp

/-- examples/full-sync.cpp: the producer, the scheduled updates, the updates printed as published (line 77), and what the
update callback printed (line 90). -/
structure FullApp where
  prod : Full
  timers : List (Nat × Name)
  draws : Nat
  published : List (Name × Nat)
  printed : List (Name × Nat)
  deriving DecidableEq, Repr

namespace FullApp

/-- `m_scheduler.schedule(...)`, examples/full-sync.cpp:59-60 and 80-81. -/
def schedule (cfg : PubAppCfg) (a : FullApp) (p : Name) : FullApp :=
  { a with timers := a.timers ++ [(a.prod.now + cfg.delay a.draws, p)], draws := a.draws + 1 }

/-- An event of the producer, with what the update callback prints (examples/full-sync.cpp:85-93). -/
def produce (cfg : PubAppCfg) (a : FullApp) (op : Full.Op) : Res FullApp :=
  Res.bind (Full.step cfg.pc a.prod op) fun s =>
  Res.bind (printUpdates (updatesOf (s.log.drop a.prod.log.length))) fun out =>
  .ok { a with prod := s, printed := a.printed ++ out }

/-- One round of the loop examples/full-sync.cpp:56-61. -/
def addStream (cfg : PubAppCfg) (a : FullApp) (p : Name) : Res FullApp :=
  Res.bind (produce cfg a (.call (.addUserNode p))) fun a => .ok (schedule cfg a p)

/-- The constructor, examples/full-sync.cpp:41-62. -/
def init (cfg : PubAppCfg) : Res FullApp :=
  Res.bind (Full.init cfg.pc) fun s => foldRes (addStream cfg) ⟨s, [], 0, [], []⟩ cfg.streams

/-- `doUpdate`, examples/full-sync.cpp:71-83. -/
def doUpdate (cfg : PubAppCfg) (a : FullApp) (p : Name) : Res FullApp :=
  Res.bind (produce cfg a (.call (.publishName p none))) fun a =>
  match a.prod.base.getSeqNo p with
  | none => .throw .badOptional
  | some seq =>
    let a := { a with published := a.published ++ [(p, seq)] }
    .ok (if seq < cfg.limit then schedule cfg a p else a)

/-- The event is not an API call of the application, and the update callback makes none. -/
def outside : Full.Op → Bool
  | .call _ => false
  | .complete _ acts => acts.isEmpty
  | _ => true

/-- What can happen to the application: packets and timers of the producer, or the next due update runs. -/
inductive Op where
  | prod (op : Full.Op)
  | update
  deriving DecidableEq, Repr

/-- One event. -/
def step (cfg : PubAppCfg) (a : FullApp) : Op → Res FullApp
  | .prod op => if outside op then produce cfg a op else .ok a
  | .update =>
    match takeDueName a.prod.now a.timers with
    | none => .ok a
    | some (p, ts) => doUpdate cfg { a with timers := ts } p

/-- A sequence of events. -/
def run (cfg : PubAppCfg) (a : FullApp) (ops : List Op) : Res FullApp := foldRes (step cfg) a ops

end FullApp
end PSync
