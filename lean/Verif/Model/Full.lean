import Verif.Model.ProducerBase
/-!
`psync::FullProducer`: PSync/full-producer.hpp, PSync/full-producer.cpp, as a state machine.

The face, the scheduler and `ndn::SegmentFetcher` are environment: what they deliver are the
operations of `Full.Op`, what PSync hands to them is the log and the timer fields.
-/
namespace PSync

/-- What the lambda stored in `m_scheduledSyncInterestId` does when it runs. -/
inductive SyncKind where
  | renew    -- PSync/full-producer.cpp:125-127, 171, 464-467: sendSyncInterest()
  | waitOut  -- PSync/full-producer.cpp:480-484: m_inNoNewDataWaitOutPeriod = false; sendSyncInterest()
  deriving DecidableEq, Repr

/-- PSync/full-producer.hpp PendingEntryInfo; the expiration event is its deadline. -/
structure FPending where
  iblt : Table
  deadline : Nat
  deriving DecidableEq, Repr

/-- PSync/full-producer.hpp WaitingEntryInfo. -/
structure Waiting where
  numTries : Nat
  nonce : Nat
  deriving DecidableEq, Repr

/-- `std::numeric_limits<uint16_t>::max()`. -/
def MAX_TRIES : Nat := 65535

/-- A SegmentFetcher: the Interest name it fetches, and whether it can still deliver events. -/
structure Fetcher where
  name : Name
  active : Bool
  deriving DecidableEq, Repr

/-- Members of FullProducer and ProducerBase, plus the clock, the oracle counters and the log. -/
structure Full where
  base : Base
  pub : SegPub
  now : Nat
  draws : Nat
  /-- The replies published so far (name, buffer, freshness).  Ghost: only the number of replies is used, as
  the index of the version that appendVersion() produces, PSync/segment-publisher.cpp:37-38. -/
  replies : List (Name × Bytes × Nat)
  pending : NMap FPending
  waiting : NMap Waiting
  delayTimer : Option Nat
  sched : Option (Nat × SyncKind)
  lastSent : Option Nat
  outstanding : Name
  fetcher : Option Fetcher
  incomingFace : Nat
  waitOut : Bool
  log : List Out
  /-- Ghost, no counterpart in the code: the numbers published by the application, PSync/full-producer.cpp:84-86. -/
  made : List (Name × Nat)
  /-- Interest names of the fetchers that still run although `m_fetcher` no longer points to them: a SegmentFetcher keeps
  itself alive and calls back until it completes, fails or is stopped. -/
  orphans : List Name := []
  deriving DecidableEq, Repr

namespace Full

/-- An observable effect is appended to the log. -/
def emit (s : Full) (o : Out) : Full := { s with log := s.log ++ [o] }

/-- `m_fetcher->stop()` if there is a fetcher. -/
def stopFetcher (s : Full) : Full :=
  { s with fetcher := s.fetcher.map (fun f => { f with active := false }) }

/-- The Interest name of the fetcher `m_fetcher` points to, if it runs. -/
def running (s : Full) : List Name :=
  match s.fetcher with
  | some f => if f.active then [f.name] else []
  | none => []

@[simp] theorem running_stopFetcher (s : Full) : s.stopFetcher.running = [] := by
  unfold running stopFetcher
  cases s.fetcher <;> rfl

/-- PSync/full-producer.cpp:116-118: less than MIN_JITTER ms since the last Interest.
`m_lastInterestSentTime` starts at the epoch, modelled by `none`. -/
def recentlySent (s : Full) : Bool :=
  match s.lastSent with
  | none => false
  | some t => decide (s.now - t < MIN_JITTER)

/-- PSync/full-producer.cpp:108-114: the sync Interest name. -/
def syncName (cfg : Cfg) (b : Base) : Res Name :=
  Res.bind (b.iblt.toComponent cfg.ibltCodec) fun c =>
  .ok (Name.appendNumber (cfg.syncPrefix ++ [c]) b.numOwn)

/-- PSync/full-producer.cpp:93-174 `sendSyncInterest`. -/
def sendSyncInterest (cfg : Cfg) (s : Full) : Res Full :=
  if s.waitOut then .ok s
  else
    let s := s.stopFetcher
    Res.bind (syncName cfg s.base) fun name =>
    if s.recentlySent && decide (s.outstanding = name) then .ok s
    else
      .ok { s with
        outstanding := name
        sched := some (s.now + cfg.lifetime / 2 + cfg.jitter s.draws, .renew)
        draws := s.draws + 1
        lastSent := some s.now
        fetcher := some ⟨name, true⟩       -- line 144; a fetcher that still ran would be left running
        orphans := s.orphans ++ s.running
        log := s.log ++ [.interest name cfg.lifetime] }

/-- `m_segmentPublisher.publish(interestName, dataName, …)`. -/
def publish (cfg : Cfg) (s : Full) (name : Name) (buf : Bytes) (freshness : Nat) : Res Full :=
  Res.bind (s.pub.publish cfg.imsLimit s.now (cfg.version s.replies.length) name name buf freshness) fun r =>
  .ok { s with pub := r.1, replies := s.replies ++ [(name, buf, freshness)], log := s.log ++ r.2.map Out.data }

/-- PSync/full-producer.cpp:408-426 `sendSyncData`.  `content` is `state.wireEncode()`. -/
def sendSyncData (cfg : Cfg) (s : Full) (name : Name) (content : Bytes) (freshness : Nat) : Res Full :=
  let own := decide (s.outstanding = name)
  let s := if own && s.fetcher.isSome then { s.stopFetcher with outstanding := [] } else s
  Res.bind (Res.ofOption .compression (cfg.contentCodec.compress content)) fun buf =>
  Res.bind (publish cfg s name buf freshness) fun s =>
  if own then sendSyncInterest cfg s else .ok s

/-- PSync/full-producer.cpp:532-540 `deletePendingInterests`. -/
def deletePending (s : Full) (name : Name) : Full := { s with pending := s.pending.erase name }

/-- `waitingIt->second.numTries = max` when `waitingIt` is valid. -/
def markWaiting (s : Full) (name : Name) : Full :=
  match s.waiting.find name with
  | some w => { s with waiting := s.waiting.set name { w with numTries := MAX_TRIES } }
  | none => s

/-- PSync/full-producer.cpp:207-225 `scheduleProcessWaitingInterests`.  (`m_interestDelayTimerId`
converts to false while its own callback runs.) -/
def scheduleProcess (cfg : Cfg) (s : Full) : Full :=
  if s.waiting.isEmpty then s
  else
    match s.delayTimer with
    | none => { s with delayTimer := some (s.now + cfg.jitter s.draws), draws := s.draws + 1 }
    | some _ => s

/-- PSync/full-producer.cpp:524-530 `isFutureHash`.  `nameWithoutSeq.toUri()` at the call site and
the conversion back to Name are taken to be the identity. -/
def isFutureHash (b : Base) (p : Name) (negative : List U32) : Bool × Base :=
  let (s, b) := b.index p
  (decide (nameHash (Name.appendNumber p ((s + 1) % U64)) ∈ negative), b)

/-- The loop PSync/full-producer.cpp:384-394: collect the content of a sync reply. -/
def collect (negative : List U32) : Base → List U32 → List Name → List Name × Base
  | b, [], acc => (acc, b)
  | b, h :: hs, acc =>
    match b.biMap.findLeft h with
    | none => collect negative b hs acc
    | some n =>
      let p := Name.dropLast n 1
      let (seq, b) := b.index p
      if seq ≠ 0 then
        let (fut, b) := isFutureHash b p negative
        if fut then collect negative b hs acc else collect negative b hs (acc ++ [n])
      else collect negative b hs acc

/-- PSync/full-producer.cpp:313-318: the entire state. -/
def allContent (b : Base) : List Name :=
  (b.prefixes.filter (fun kv => kv.2 ≠ 0)).map (fun kv => Name.appendNumber kv.1 kv.2)

/-- PSync/full-producer.cpp:283-303 and 358-380: wait, keep waiting, or give up. Returns the new
state and whether the entry was given up. -/
def waitOrGiveUp (cfg : Cfg) (s : Full) (i : Interest) (timed : Bool) : Full × Bool :=
  match s.waiting.find i.name with
  | none =>
    if !timed then
      (scheduleProcess cfg { s with waiting := s.waiting.set i.name ⟨0, i.nonce⟩ }, false)
    else (s, false)
  | some w =>
    if timed then
      if w.numTries > 1 then (s.markWaiting i.name, true) else (s, false)
    else (s, false)

/-- PSync/full-producer.cpp:280-335: the `!diff.canDecode` branch. -/
def onUndecodable (cfg : Cfg) (s : Full) (i : Interest) (timed : Bool) (numRcvd : Nat)
    (diff : IBLTDiff) : Res Full :=
  if numRcvd > s.base.numOwn then
    match waitOrGiveUp cfg s i timed with
    | (s, true) => sendSyncInterest cfg s
    | (s, false) => .ok s
  else if s.base.numOwn = numRcvd ∧ diff.positive.length = 0 ∧ diff.negative.length > 0 then .ok s
  else
    let content := allContent s.base
    if content.isEmpty then .ok (s.markWaiting i.name)
    else
      Res.bind (sendSyncData cfg s i.name (encodeNames content) 10) fun s =>
      .ok ((s.deletePending i.name).markWaiting i.name)

/-- PSync/full-producer.cpp:338-405: the branches where the difference decodes. -/
def onDecoded (cfg : Cfg) (s : Full) (i : Interest) (timed : Bool) (iblt : Table)
    (diff : IBLTDiff) : Res Full :=
  if diff.positive.isEmpty && diff.negative.isEmpty then
    let e : FPending := (s.pending.find i.name).getD ⟨iblt, 0⟩
    let s := { s with pending := s.pending.set i.name { e with deadline := s.now + i.lifetime } }
    .ok (if timed then s.markWaiting i.name else s)
  else if diff.positive.isEmpty then
    .ok (waitOrGiveUp cfg s i timed).1
  else
    let (content, b) := collect diff.negative s.base diff.positive []
    let s := { s with base := b }
    if content.isEmpty then .ok s
    else
      Res.bind (sendSyncData cfg s i.name (encodeNames content) cfg.freshness) fun s =>
      .ok (s.markWaiting i.name)

/-- PSync/full-producer.cpp:227-406 `onSyncInterest`; `prefixName` is `m_syncPrefix` in both callers
(Interest filter, processWaitingInterests). -/
def onSyncInterest (cfg : Cfg) (s : Full) (i : Interest) (timed : Bool) : Res Full :=
  match s.pub.replyFromStore i.name with
  | some d => .ok (s.emit (.data d))
  | none =>
    let rest := i.name.drop cfg.syncPrefix.length
    if rest.length = 4 then
      Res.bind (nackData cfg s.base cfg.syncPrefix) fun d => .ok (s.emit (.data d))
    else if rest.length ≠ 2 then .ok s
    else
      Res.bind (i.name.getFromEnd 2) fun ibltName =>
      Res.bind (i.name.getFromEnd 1) fun last =>
      Res.bind last.toNumber fun numRcvd =>
      match Table.initialize cfg.ibltCodec cfg.expected ibltName with
      | .throw _ => .ok s
      | .ub u => .ub u
      | .hang => .hang
      | .ok iblt =>
        Res.bind (Table.diff cfg.fuel s.base.iblt iblt) fun diff =>
        if !diff.canDecode then onUndecodable cfg s i timed numRcvd diff
        else onDecoded cfg s i timed iblt diff

/-- Body of the loop PSync/full-producer.cpp:184-203 for the entry with key `name`.
(onSyncInterest never adds or removes keys of the map when called from here.) -/
def processOne (cfg : Cfg) (s : Full) (name : Name) : Res Full :=
  match s.waiting.find name with
  | none => .ok s
  | some w =>
    if w.numTries = MAX_TRIES then .ok { s with waiting := s.waiting.erase name }
    else
      let s := { s with waiting := s.waiting.set name { w with numTries := w.numTries + 1 } }
      Res.bind (onSyncInterest cfg s ⟨name, defaultLifetime, w.nonce⟩ true) fun s =>
      match s.waiting.find name with
      | none => .ok s
      | some w =>
        if w.numTries = MAX_TRIES then .ok { s with waiting := s.waiting.erase name } else .ok s

/-- PSync/full-producer.cpp:176-205 `processWaitingInterests`. -/
def processWaiting (cfg : Cfg) (s : Full) : Res Full :=
  foldRes (processOne cfg) s s.waiting.keys

/-- Content of the loop PSync/full-producer.cpp:502-516. -/
def satisfyContent (b : Base) (positive : List U32) (updated : Name) : List Name :=
  let found := positive.filterMap b.biMap.findLeft
  if updated ∈ found then found else found ++ [updated]

/-- Body of the loop PSync/full-producer.cpp:495-521. -/
def satisfyOne (cfg : Cfg) (updated : Name) (s : Full) (e : Name × FPending) : Res Full :=
  Res.bind (Table.diff cfg.fuel s.base.iblt e.2.iblt) fun diff =>
  Res.bind (sendSyncData cfg s e.1 (encodeNames (satisfyContent s.base diff.positive updated))
    cfg.freshness) fun s =>
  .ok (s.deletePending e.1)

/-- PSync/full-producer.cpp:490-522 `satisfyPendingInterests`. -/
def satisfyPending (cfg : Cfg) (s : Full) (updated : Name) : Res Full :=
  foldRes (satisfyOne cfg updated) s s.pending

/-- The sequence number published: PSync/full-producer.cpp:84, PSync/partial-producer.cpp:74
(`uint64_t` argument and addition). -/
def newSeq (seq : Option Nat) (cur : Nat) : Nat :=
  match seq with
  | some q => q % U64
  | none => (cur + 1) % U64

/-- PSync/full-producer.cpp:76-91 `publishName`. -/
def publishName (cfg : Cfg) (s : Full) (p : Name) (seq : Option Nat) : Res Full :=
  match s.base.prefixes.find p with
  | none => .ok s
  | some cur =>
    let q := newSeq seq cur
    Res.bind (s.base.updateSeqNo p q) fun b =>
    satisfyPending cfg { s with base := b, waitOut := false, made := s.made ++ [(p, q)] } (Name.appendNumber p q)

/-- Application calls. -/
inductive Call where
  | addUserNode (p : Name)
  | removeUserNode (p : Name)
  | publishName (p : Name) (seq : Option Nat)
  deriving DecidableEq, Repr

/-- One application call: PSync/producer-base.cpp:52-79 and PSync/full-producer.cpp:76-91. -/
def call (cfg : Cfg) (s : Full) : Call → Res Full
  | .addUserNode p => .ok { s with base := (s.base.addUserNode p).2 }
  | .removeUserNode p => Res.bind (s.base.removeUserNode p) fun b => .ok { s with base := b }
  | .publishName p seq => publishName cfg s p seq

/-- The condition PSync/full-producer.cpp:450. -/
def isNewer (b : Base) (p : Name) (seq : Nat) : Bool :=
  match b.prefixes.find p with
  | none => true
  | some cur => decide (cur < seq)

/-- Loop PSync/full-producer.cpp:446-458 over the received names. -/
def merge (face : Nat) : Base → List Name → List MissingDataInfo → Res (List MissingDataInfo × Base)
  | b, [], acc => .ok (acc, b)
  | b, n :: ns, acc =>
    let p := Name.dropLast n 1
    Res.bind (n.getFromEnd 1) fun last =>
    Res.bind last.toNumber fun seq =>
    if isNewer b p seq then
      let (cur, b) := b.index p
      Res.bind (b.updateSeqNo p seq) fun b =>
      merge face b ns (acc ++ [⟨p, (cur + 1) % U64, seq, face⟩])
    else merge face b ns acc

/-- PSync/full-producer.cpp:434-441: decompress and decode inside try; `none` = caught exception. -/
def decodeReply (cfg : Cfg) (buf : Bytes) : Option (List Name) :=
  match cfg.contentCodec.decompress buf with
  | none => none
  | some raw =>
    match StateMsg.wireDecode raw with
    | .ok st => some st.content
    | _ => none

/-- PSync/full-producer.cpp:428-488 `onSyncData`.  `acts`: the calls the application makes from
inside the update callback. -/
def onSyncData (cfg : Cfg) (s : Full) (name : Name) (buf : Bytes) (acts : List Call) : Res Full :=
  let s := s.deletePending name
  match decodeReply cfg buf with
  | none => .ok s
  | some ns =>
    Res.bind (merge s.incomingFace s.base ns []) fun r =>
    let s := { s with base := r.2 }
    if r.1.isEmpty then
      .ok { s with waitOut := true
                   sched := some (s.now + (cfg.freshness + cfg.jitter s.draws), .waitOut)
                   draws := s.draws + 1 }
    else
      Res.bind (foldRes (call cfg) (s.emit (.update r.1)) acts) fun s =>
      processWaiting cfg
        { s with sched := some (s.now + cfg.jitter s.draws, .renew)
                 draws := s.draws + 1
                 waitOut := false }

/-- Everything that can happen to a FullProducer. -/
inductive Op where
  | call (c : Call)
  | recvInterest (i : Interest)                      -- face delivers a matching Interest
  | segment (face : Nat)                             -- fetcher validated a segment (face id, 0 if none)
  | complete (buf : Bytes) (acts : List Call)        -- fetcher completed
  | error (timeout : Bool)                           -- fetcher failed
  | tick (t : Nat)                                   -- the clock advances to `t`
  | fireSync                                         -- the timer in m_scheduledSyncInterestId runs
  | fireDelay                                        -- the timer in m_interestDelayTimerId runs
  | expire (name : Name)                             -- an expiration event of m_pendingEntries runs
  | fireStore                                        -- due erasure timers of the segment store run
  deriving DecidableEq, Repr

/-- The clock may reach `t`: no armed timer would be more than `cfg.lag` ms late. -/
def timersAfter (cfg : Cfg) (s : Full) (t : Nat) : Bool :=
  (match s.sched with | none => true | some (d, _) => decide (t ≤ d + cfg.lag)) &&
  (match s.delayTimer with | none => true | some d => decide (t ≤ d + cfg.lag)) &&
  s.pending.all (fun e => decide (t ≤ e.2.deadline + cfg.lag)) &&
  s.pub.timers.all (fun e => decide (t ≤ e.1 + cfg.lag))

/-- One event.  Events that cannot happen in the current state leave it unchanged. -/
def step (cfg : Cfg) (s : Full) : Op → Res Full
  | .call c => call cfg s c
  | .recvInterest i =>
    if cfg.syncPrefix.isPrefixOf i.name then onSyncInterest cfg s i false else .ok s
  | .segment face =>
    match s.fetcher with
    | some f => .ok (if f.active then { s with incomingFace := face } else s)
    | none => .ok s
  | .complete buf acts =>
    match s.fetcher with
    | some f => if f.active then onSyncData cfg s.stopFetcher f.name buf acts else .ok s
    | none => .ok s
  | .error timeout =>
    match s.fetcher with
    | some f =>
      if f.active then
        let s := s.stopFetcher
        .ok (if timeout then s
             else { s with sched := some (s.now + cfg.jitter s.draws, .renew), draws := s.draws + 1 })
      else .ok s
    | none => .ok s
  | .tick t => .ok (if s.now ≤ t && s.timersAfter cfg t then { s with now := t } else s)
  | .fireSync =>
    match s.sched with
    | some (d, k) =>
      if d ≤ s.now then
        let s := { s with sched := none }
        match k with
        | .renew => sendSyncInterest cfg s
        | .waitOut => sendSyncInterest cfg { s with waitOut := false }
      else .ok s
    | none => .ok s
  | .fireDelay =>
    match s.delayTimer with
    | some d =>
      if d ≤ s.now then
        Res.bind (processWaiting cfg { s with delayTimer := none }) fun s => .ok (scheduleProcess cfg s)
      else .ok s
    | none => .ok s
  | .expire name =>
    match s.pending.find name with
    | some e => .ok (if e.deadline ≤ s.now then s.deletePending name else s)
    | none => .ok s
  | .fireStore => .ok { s with pub := s.pub.fire s.now }

/-- A sequence of events. -/
def run (cfg : Cfg) (s : Full) (ops : List Op) : Res Full := foldRes (step cfg) s ops

/-- PSync/full-producer.cpp:34-50 constructor: initial members, then `sendSyncInterest()`. -/
def fresh (cfg : Cfg) : Full :=
  { base := Base.new cfg, pub := SegPub.empty, now := 0, draws := 0, replies := [], pending := [],
    waiting := [], delayTimer := none, sched := none, lastSent := none, outstanding := [],
    fetcher := none, incomingFace := 0, waitOut := false, log := [], made := [] }

/-- PSync/full-producer.cpp:34-50: the constructed producer, including the call of `sendSyncInterest()`. -/
def init (cfg : Cfg) : Res Full := sendSyncInterest cfg (fresh cfg)

/-- States a FullProducer can be in. -/
def Reach (cfg : Cfg) (s : Full) : Prop := ∃ s0 ops, init cfg = .ok s0 ∧ run cfg s0 ops = .ok s

end Full
end PSync
