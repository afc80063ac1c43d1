import Verif.Spec.Producer
import Verif.Spec.Valid
import Verif.Spec.Segments
/-!
What full synchronisation is supposed to do with received names, stated over `getSeqNo`, the update
callback and the packets only.
-/
namespace PSync.Spec

/-- Names that can be put in a packet: valid components, and an encoding of less than 2^64 bytes. -/
def Encodable (content : List Name) : Prop :=
  (∀ n ∈ content, n.Valid) ∧ (encodeNames content).length < 18446744073709551616

/-- The prefix and the number a received name announces: everything but the last component, and the last
component read as a number. -/
def announced (n : Name) : Option (Name × Nat) :=
  match n.getLast? with
  | none => none
  | some c => (readNni c.value).map (fun q => (n.take (n.length - 1), q))

/-- The number known for `p` after the announcements `ps`: the largest one. -/
def best (p : Name) (old : Option Nat) (ps : List (Name × Nat)) : Option Nat :=
  ps.foldl (fun o e => if e.1 = p then some (max (o.getD 0) e.2) else o) old

/-- The ranges for `p` in a sequence of update callbacks, in order. -/
def notified (p : Name) : List Out → List (Nat × Nat)
  | [] => []
  | .update us :: log => (us.filter (fun u => u.pfx = p)).map (fun u => (u.lowSeq, u.highSeq)) ++ notified p log
  | _ :: log => notified p log

/-- The ranges follow each other without gap or overlap from `a + 1` to `b`. -/
inductive Tiles : Nat → List (Nat × Nat) → Nat → Prop
  | nil (a : Nat) : Tiles a [] a
  | cons {a b : Nat} (h : Nat) (l : List (Nat × Nat)) : a ≤ h → Tiles h l b → Tiles a ((a + 1, h) :: l) b

/-- The sync Data processed by one event: the content of a fetch that completes while the fetcher is
active. -/
def receivedNow (s : Full) : Full.Op → List Bytes
  | .complete buf _ =>
    match s.fetcher with
    | some f => if f.active then [buf] else []
    | none => []
  | _ => []

/-- The sync Data a node has processed during a sequence of events. -/
def received (cfg : Cfg) : Full → List Full.Op → List Bytes
  | _, [] => []
  | s, op :: ops =>
    match Full.step cfg s op with
    | .ok s' => receivedNow s op ++ received cfg s' ops
    | _ => receivedNow s op

/-- The names in a reply, as a receiver reads them (none if it cannot be read). -/
def namesIn (cfg : Cfg) (buf : Bytes) : List Name :=
  match cfg.contentCodec.decompress buf with
  | none => []
  | some raw =>
    match StateMsg.wireDecode raw with
    | .ok st => st.content
    | _ => []

/-- The Data packets in a sequence of outputs, in order. -/
def dataOf : List Out → List Data
  | [] => []
  | .data d :: log => d :: dataOf log
  | _ :: log => dataOf log

/-- An update callback. -/
def isUpdate : Out → Bool
  | .update _ => true
  | _ => false

/-- `d` is the first packet of a reply to `name` whose content, compressed with the codec of the
configuration, are the names in `content`. -/
def FirstOfReply (cfg : Cfg) (name : Name) (content : List Name) (d : Data) : Prop :=
  ∃ v buf fr segs, IsSegmentation (name.appendVersion v) buf fr segs ∧ segs.head? = some d ∧
    cfg.contentCodec.decompress buf = some (encodeNames content)

/-- `d` is a packet of a reply to `name` with the names in `content`. -/
def PartOfReply (cfg : Cfg) (name : Name) (content : List Name) (d : Data) : Prop :=
  ∃ v buf fr segs, IsSegmentation (name.appendVersion v) buf fr segs ∧ d ∈ segs ∧
    cfg.contentCodec.decompress buf = some (encodeNames content)

/-- publishName with this argument raises the number from `cur`. -/
def Advances (seq : Option Nat) (cur : Nat) : Prop :=
  match seq with
  | some x => cur < x ∧ x < 2 ^ 64
  | none => cur + 1 < 2 ^ 64

/-- The Interest named `n` is about data that this node (table `b`, store `pub`) does not have: no packet
for it is in the store, and either the difference decodes to missing data only, or it does not decode and
the Interest reports more publications than we have. -/
def AheadOf (cfg : Cfg) (pub : SegPub) (b : Base) (n : Name) : Prop :=
  pub.replyFromStore n = none ∧ ∃ c2 c1 num iblt diff, (n.drop cfg.syncPrefix.length).length = 2 ∧
    n.getFromEnd 2 = .ok c2 ∧ n.getFromEnd 1 = .ok c1 ∧ c1.toNumber = .ok num ∧
    Table.initialize cfg.ibltCodec cfg.expected c2 = .ok iblt ∧ Table.diff cfg.fuel b.iblt iblt = .ok diff ∧
    ((diff.canDecode = false ∧ num > b.numOwn) ∨
     (diff.canDecode = true ∧ diff.positive = [] ∧ diff.negative ≠ []))

/-- The sync Interest name `n` ends in an IBF and a number, and the IBF is `t`. -/
def CarriesIbf (cfg : Cfg) (n : Name) (t : Table) : Prop :=
  ∃ m c d, n = m ++ [c, d] ∧ Table.initialize cfg.ibltCodec cfg.expected c = .ok t

end PSync.Spec
