import Verif.Spec.Protocol
import Verif.Spec.Sync
/-!
A group of full-sync nodes over a network.

Each event happens at one node.  The network is not a component of its own: an Interest may be delivered to
any node, at any time, any number of times, whether or not a node has sent it, and a fetch may complete with any
packets that any node has ever sent.  So loss, delay, duplication, reordering and caching are all covered;
what is excluded is only that a fetch completes with packets no node has sent.
-/
namespace PSync.Spec

/-- A fetch for `name` that completed with the packets `segs` and delivered `buf` (ndn::SegmentFetcher): the
packets are segments 0, 1, 2, … of one name `v` (which carries the version of the first packet received), one of
them announced the last segment number, and the first one satisfied the Interest. -/
structure Fetched (sent : Data → Prop) (name : Name) (segs : List Data) (buf : Bytes) : Prop where
  packets : ∀ d ∈ segs, sent d
  named : ∃ v : Name, ∀ (i : Nat) (d : Data), segs[i]? = some d → d.name = v ++ [⟨50, nniBytes i⟩]
  first : ∃ d : Data, segs[0]? = some d ∧ name <+: d.name
  final : ∃ d ∈ segs, d.finalBlock = some ⟨50, nniBytes (segs.length - 1)⟩
  few : segs.length < 2 ^ 64
  content : buf = (segs.map Data.content).flatten

/-- Some node of the group has sent `d`. -/
def SentBy {ι : Type} (g : ι → Full) (d : Data) : Prop := ∃ j, Out.data d ∈ (g j).log

/-- Some node has published `q` for `p`. -/
def PublishedBy {ι : Type} (g : ι → Full) (p : Name) (q : Nat) : Prop := ∃ j, (p, q) ∈ (g j).made

/-- An event at node `i`.  If a fetch completes, it was for an Interest the node has sent, and with packets that
nodes of the group have sent. -/
structure GStep {ι : Type} (cfg : ι → Cfg) (i : ι) (op : Full.Op) (g g' : ι → Full) : Prop where
  honest : ∀ buf acts, op = .complete buf acts →
    ∃ n lt segs, Out.interest n lt ∈ (g i).log ∧ Fetched (SentBy g) n segs buf
  step : Full.step (cfg i) (g i) op = .ok (g' i)
  others : ∀ j, j ≠ i → g' j = g j

/-- A run of the group: the state after each number of events, and the node and the kind of each event. -/
structure GRun {ι : Type} (cfg : ι → Cfg) (g : Nat → ι → Full) (who : Nat → ι) (what : Nat → Full.Op) (len : Nat) :
    Prop where
  init : ∀ i, Full.init (cfg i) = .ok (g 0 i)
  step : ∀ n < len, GStep cfg (who n) (what n) (g n) (g (n + 1))

/-- What the nodes of a group have in common, and what their settings must satisfy. -/
structure IsGroup {ι : Type} (cfg : ι → Cfg) : Prop where
  same : ∀ i j, SameProtocol (cfg i) (cfg j)
  wf : ∀ i, (cfg i).WF
  expected : ∀ i, 0 < (cfg i).expected

/-- What was published and replied can be put in packets: the published names are names, and no reply is as
long as the address space, compressed or not. -/
structure Sendable {ι : Type} (cfg : ι → Cfg) (g : ι → Full) : Prop where
  names : ∀ j, ∀ e ∈ (g j).made, e.1.Valid
  buffers : ∀ j, ∀ e ∈ (g j).replies, e.2.1.length < 2 ^ 64 ∧
    ∀ raw, (cfg j).contentCodec.decompress e.2.1 = some raw → raw.length < 2 ^ 64
  version_lt : ∀ j, ∀ a < (g j).replies.length, (cfg j).version a < 2 ^ 64

/-- In addition, no two replies carry the same version (which is their time stamp in milliseconds). -/
structure Sane {ι : Type} (cfg : ι → Cfg) (g : ι → Full) : Prop extends Sendable cfg g where
  versions : ∀ i j, ∀ a < (g i).replies.length, ∀ b < (g j).replies.length,
    (cfg i).version a = (cfg j).version b → i = j ∧ a = b

/-- `n` is a published name, or the one that would follow it. -/
def Near (P : Name → Nat → Prop) (n : Name) : Prop :=
  ∃ p q, P p q ∧ (n = Name.appendNumber p q ∨ n = Name.appendNumber p ((q + 1) % 2 ^ 64))

/-- The hashes in `A` are hashes of published names, each once. -/
def HashesOf (P : Name → Nat → Prop) (A : List U32) : Prop :=
  A.Nodup ∧ ∀ k ∈ A, ∃ p q, P p q ∧ murmurName 11#32 (Name.appendNumber p q) = k

/-- No hash collision among published names and their successors, no checksum collision and fewer than 2^31 - 1
differences among sets of published names. -/
structure NoCollisionsIn (expected : Nat) (P : Name → Nat → Prop) : Prop where
  names : ∀ n n', Near P n → Near P n' → murmurName 11#32 n = murmurName 11#32 n' → n = n'
  checks : ∀ A B, HashesOf P A → HashesOf P B → NoChecksumCollision expected A B
  few : ∀ A B, HashesOf P A → HashesOf P B → diffCount A B < 2147483647

/-- The difference between the IBF of `s` and the one in the sync Interest name `n` can be decoded. -/
def Decodes (cfg : Cfg) (s : Full) (n : Name) : Prop :=
  ∃ c t df, n.getFromEnd 2 = .ok c ∧ Table.initialize cfg.ibltCodec cfg.expected c = .ok t ∧
    Table.diff cfg.fuel s.base.iblt t = .ok df ∧ df.canDecode = true

/-- What a node emitted between two states. -/
def newOutput (s s' : Full) : List Out := s'.log.drop s.log.length

/-- Event `a` of a run: node `j` receives a sync Interest that node `i` has sent. -/
structure Asks {ι : Type} (g : Nat → ι → Full) (who : Nat → ι) (what : Nat → Full.Op) (j i : ι) (a : Nat)
    (int : Interest) : Prop where
  who : who a = j
  what : what a = .recvInterest int
  sent : ∃ lt, Out.interest int.name lt ∈ (g a i).log

/-- Event `b` of a run: at node `i` a fetch completes whose first packet was `d`. -/
structure Completes {ι : Type} (g : Nat → ι → Full) (who : Nat → ι) (what : Nat → Full.Op) (i : ι) (d : Data) (b : Nat) :
    Prop where
  who : who b = i
  active : ∃ f, (g b i).fetcher = some f ∧ f.active = true
  fetch : ∃ n lt segs buf acts, Out.interest n lt ∈ (g b i).log ∧ Fetched (SentBy (g b)) n segs buf ∧
    segs[0]? = some d ∧ what b = .complete buf acts

/-- The segment store holds no reply to the Interest `n`. -/
def NotStored (s : Full) (n : Name) : Prop := s.pub.replyFromStore n = none

/-- Node `j` brings node `i` up to date: `j` receives a sync Interest of `i` in event `a`, in a state that
satisfies `ok`.  Either it sends no Data although the difference can be decoded; or it sends a packet, and
the fetch of `i` that starts with it completes in event `b`.  The exchange is over after `b` events. -/
inductive Exchange {ι : Type} (ok : Full → Name → Prop) (cfg : ι → Cfg) (g : Nat → ι → Full) (who : Nat → ι)
    (what : Nat → Full.Op) (j i : ι) (a : Nat) : Nat → Prop
  | quiet (int : Interest) : Asks g who what j i a int → ok (g a j) int.name →
      (∀ d, Out.data d ∉ newOutput (g a j) (g (a + 1) j)) → Decodes (cfg j) (g a j) int.name →
      Exchange ok cfg g who what j i a (a + 1)
  | answered (int : Interest) (d : Data) (b : Nat) : Asks g who what j i a int → ok (g a j) int.name →
      Out.data d ∈ newOutput (g a j) (g (a + 1) j) → a < b → Completes g who what i d b →
      Exchange ok cfg g who what j i a (b + 1)

/-- What node `j` knows after `t` events reaches node `i` within `u` events, by exchanges one after the
other. -/
inductive Path {ι : Type} (ok : Full → Name → Prop) (cfg : ι → Cfg) (g : Nat → ι → Full) (who : Nat → ι)
    (what : Nat → Full.Op) (j : ι) (t : Nat) : ι → Nat → Prop
  | same (u : Nat) : t ≤ u → Path ok cfg g who what j t j u
  | next (k i : ι) (a b u : Nat) : Path ok cfg g who what j t k a → Exchange ok cfg g who what k i a b → b ≤ u →
      Path ok cfg g who what j t i u

/-- The number of a prefix in a table, 0 if there is none. -/
def numberOf (s : Full) (p : Name) : Nat := (s.base.getSeqNo p).getD 0

end PSync.Spec
