import Verif.Model.Full
/-!
`psync::PartialProducer`: PSync/partial-producer.hpp, PSync/partial-producer.cpp.
-/
namespace PSync

/-- PSync/partial-producer.cpp:31 -/
def HELLO : Component := ⟨TlvType.generic, [0x68#8, 0x65#8, 0x6c#8, 0x6c#8, 0x6f#8]⟩
/-- PSync/partial-producer.cpp:32 -/
def SYNC : Component := ⟨TlvType.generic, [0x73#8, 0x79#8, 0x6e#8, 0x63#8]⟩

/-- PSync/partial-producer.hpp PendingEntryInfo.  `timer`: deadline of the expiration event, `none`
once it has run; `expKey`: the name that event erases (`interest.getName()`). -/
structure PPending where
  bf : Bloom
  iblt : Table
  timer : Option Nat
  expKey : Name
  deriving DecidableEq, Repr

/-- The state of a PartialProducer: PSync/producer-base.hpp members, PSync/partial-producer.hpp `m_pendingEntries`,
the clock and what was put on the face.  Not in the source: `replies`, the buffers given to the segment
publisher so far (name without version, content, freshness; their number selects the next version), and `made`, the
numbers published so far. -/
structure Part where
  base : Base
  pub : SegPub
  now : Nat
  replies : List (Name × Bytes × Nat)
  made : List (Name × Nat)
  pending : NMap PPending
  log : List Out
  deriving DecidableEq, Repr

namespace Part

/-- An observable effect is appended to the log. -/
def emit (s : Part) (o : Out) : Part := { s with log := s.log ++ [o] }

/-- `m_threshold`, PSync/producer-base.cpp:44. -/
def threshold (cfg : Cfg) : Nat := cfg.expected / 2

/-- `m_segmentPublisher.publish(interestName, dataName, …)`. -/
def publish (cfg : Cfg) (s : Part) (interestName dataName : Name) (buf : Bytes) (freshness : Nat) :
    Res Part :=
  Res.bind (s.pub.publish cfg.imsLimit s.now (cfg.version s.replies.length) interestName dataName buf freshness)
    fun r => .ok { s with pub := r.1, replies := s.replies ++ [(dataName, buf, freshness)]
                          log := s.log ++ r.2.map Out.data }

/-- Body of the loop PSync/partial-producer.cpp:215-253 for one pending entry. -/
def satisfyOne (cfg : Cfg) (p : Name) (s : Part) (e : Name × PPending) : Res Part :=
  Res.bind (Table.diff cfg.fuel s.base.iblt e.2.iblt) fun diff =>
  if !diff.canDecode then .ok { s with pending := s.pending.erase e.1 }
  else
    Res.bind (e.2.bf.contains p) fun sub =>
    if sub || decide (diff.positive.length + diff.negative.length ≥ threshold cfg) then
      let (seq, b) := if sub then s.base.index p else (0, s.base)
      let content := if sub then [Name.appendNumber p seq] else []
      let s := { s with base := b }
      Res.bind (s.base.iblt.toComponent cfg.ibltCodec) fun c =>
      Res.bind (publish cfg s e.1 (e.1 ++ [c]) (encodeNames content) cfg.freshness) fun s =>
      .ok { s with pending := s.pending.erase e.1 }
    else .ok s

/-- PSync/partial-producer.cpp:211-254 `satisfyPendingSyncInterests`. -/
def satisfyPending (cfg : Cfg) (s : Part) (p : Name) : Res Part :=
  foldRes (satisfyOne cfg p) s s.pending

/-- PSync/partial-producer.cpp:67-78 `publishName`. -/
def publishName (cfg : Cfg) (s : Part) (p : Name) (seq : Option Nat) : Res Part :=
  match s.base.prefixes.find p with
  | none => .ok s
  | some cur =>
    let q := Full.newSeq seq cur
    Res.bind (s.base.updateSeqNo p q) fun b =>
    satisfyPending cfg { s with base := b, made := s.made ++ [(p, q)] } p

/-- PSync/partial-producer.cpp:96-99: every prefix with its number. -/
def helloContent (b : Base) : List Name := b.prefixes.map (fun kv => Name.appendNumber kv.1 kv.2)

/-- PSync/partial-producer.cpp:80-107 `onHelloInterest`; `prefix` is `/<sync-prefix>/hello`. -/
def onHelloInterest (cfg : Cfg) (s : Part) (i : Interest) : Res Part :=
  match s.pub.replyFromStore i.name with
  | some d => .ok (s.emit (.data d))
  | none =>
    Res.bind (i.name.getFromEnd 1) fun last =>
    Res.bind (if last = HELLO then .ok HELLO else i.name.getFromEnd 4) fun c4 =>
    if c4 ≠ HELLO then .ok s
    else
      Res.bind (s.base.iblt.toComponent cfg.ibltCodec) fun c =>
      publish cfg s i.name (cfg.syncPrefix ++ [HELLO, c]) (encodeNames (helloContent s.base))
        cfg.helloFreshness

/-- PSync/partial-producer.cpp:138-142: the four components; `none` = caught exception. -/
def extract (n : Name) : Res (Nat × Nat × Component × Component) :=
  Res.bind (n.getFromEnd 4) fun c4 =>
  Res.bind c4.toNumber fun count =>
  Res.bind (n.getFromEnd 3) fun c3 =>
  Res.bind c3.toNumber fun fpp =>
  Res.bind (n.getFromEnd 2) fun bf =>
  Res.bind (n.getFromEnd 1) fun ib =>
  .ok (count % 4294967296, fpp, bf, ib)

/-- Loop PSync/partial-producer.cpp:179-188. -/
def collect (b : Base) (bf : Bloom) : List U32 → List Name → Res (List Name)
  | [], acc => .ok acc
  | h :: hs, acc =>
    match b.biMap.findLeft h with
    | none => collect b bf hs acc
    | some n =>
      Res.bind (bf.contains (Name.dropLast n 1)) fun sub =>
      collect b bf hs (if sub then acc ++ [n] else acc)

/-- PSync/partial-producer.cpp:161-209, after the Interest has been parsed. -/
def onSyncParsed (cfg : Cfg) (s : Part) (i : Interest) (interestName : Name) (bf : Bloom)
    (iblt : Table) : Res Part :=
  Res.bind (Table.diff cfg.fuel s.base.iblt iblt) fun diff =>
  if !diff.canDecode then
    Res.bind (nackData cfg s.base interestName) fun d => .ok (s.emit (.data d))
  else
    Res.bind (collect s.base bf diff.positive []) fun content =>
    if decide (diff.positive.length + diff.negative.length ≥ threshold cfg) || !content.isEmpty then
      Res.bind (s.base.iblt.toComponent cfg.ibltCodec) fun c =>
      publish cfg s i.name (interestName ++ [c]) (encodeNames content) cfg.freshness
    else
      let e : PPending := (s.pending.find interestName).getD ⟨bf, iblt, none, []⟩
      .ok { s with pending := s.pending.set interestName
                    { e with timer := some (s.now + i.lifetime), expKey := i.name } }

/-- PSync/partial-producer.cpp:109-209 `onSyncInterest`; `prefix` is `/<sync-prefix>/sync`. -/
def onSyncInterest (cfg : Cfg) (s : Part) (i : Interest) : Res Part :=
  match s.pub.replyFromStore i.name with
  | some d => .ok (s.emit (.data d))
  | none =>
    let n := (i.name.drop (cfg.syncPrefix.length + 1)).length
    if n ≠ 4 ∧ n ≠ 6 then .ok s
    else
      let interestName := if n = 4 then i.name else Name.dropLast i.name 2
      match extract interestName with
      | .throw _ => .ok s
      | .ub u => .ub u
      | .hang => .hang
      | .ok (count, fpp, bfName, ibltName) =>
        match Res.bind (Bloom.ofComponent cfg.libm cfg.extraSalt count (cfg.libm.ofThousandths fpp) bfName)
          (fun bf => Res.bind (Table.initialize cfg.ibltCodec cfg.expected ibltName) fun t => .ok (bf, t)) with
        | .throw _ => .ok s
        | .ub u => .ub u
        | .hang => .hang
        | .ok (bf, iblt) => onSyncParsed cfg s i interestName bf iblt

/-- Everything that can happen to a PartialProducer: API calls (PSync/producer-base.cpp:52-79,
PSync/partial-producer.cpp:67-78), Interests delivered by the face, passing of time, the expiration events of
PSync/partial-producer.cpp:203-208 and the erasure events of PSync/segment-publisher.cpp:41. -/
inductive Op where
  | addUserNode (p : Name)
  | removeUserNode (p : Name)
  | publishName (p : Name) (seq : Option Nat)
  | recvInterest (i : Interest)
  | tick (t : Nat)
  | expire (name : Name)        -- expiration event of the pending entry stored under `name`
  | fireStore
  deriving DecidableEq, Repr

/-- The clock may reach `t`: no armed timer would be more than `cfg.lag` ms late. -/
def timersAfter (cfg : Cfg) (s : Part) (t : Nat) : Bool :=
  s.pending.all (fun e => match e.2.timer with | none => true | some d => decide (t ≤ d + cfg.lag)) &&
  s.pub.timers.all (fun e => decide (t ≤ e.1 + cfg.lag))

/-- One event.  Events that cannot happen in the current state leave it unchanged.  Interest dispatch: the two
Interest filters of PSync/partial-producer.cpp:42-49; hello and sync prefix differ, so at most one matches. -/
def step (cfg : Cfg) (s : Part) : Op → Res Part
  | .addUserNode p => .ok { s with base := (s.base.addUserNode p).2 }
  | .removeUserNode p => Res.bind (s.base.removeUserNode p) fun b => .ok { s with base := b }
  | .publishName p seq => publishName cfg s p seq
  | .recvInterest i =>
    if (cfg.syncPrefix ++ [HELLO]).isPrefixOf i.name then onHelloInterest cfg s i
    else if (cfg.syncPrefix ++ [SYNC]).isPrefixOf i.name then onSyncInterest cfg s i
    else .ok s
  | .tick t => .ok (if s.now ≤ t && s.timersAfter cfg t then { s with now := t } else s)
  | .expire name =>
    match s.pending.find name with
    | some e =>
      match e.timer with
      | some d =>
        if d ≤ s.now then
          .ok { s with pending := (s.pending.set name { e with timer := none }).erase e.expKey }
        else .ok s
      | none => .ok s
    | none => .ok s
  | .fireStore => .ok { s with pub := s.pub.fire s.now }

/-- A sequence of events. -/
def run (cfg : Cfg) (s : Part) (ops : List Op) : Res Part := foldRes (step cfg) s ops

/-- PSync/partial-producer.cpp:34-50 constructor. -/
def init (cfg : Cfg) : Part :=
  { base := Base.new cfg, pub := SegPub.empty, now := 0, replies := [], made := [], pending := [], log := [] }

/-- States a PartialProducer can be in. -/
def Reach (cfg : Cfg) (s : Part) : Prop := ∃ ops, run cfg (init cfg) ops = .ok s

end Part
end PSync
