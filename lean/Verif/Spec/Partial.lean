import Verif.Spec.Sync
/-!
What a partial-sync producer is supposed to do with Interests, stated over `getSeqNo`, the current IBF, the
fields of an Interest name and the packets.
-/
namespace PSync.Spec

/-- `/<sync-prefix>/sync/<count>/<thousandths>/<table>/<IBF>` with the filter and the IBF it carries. -/
def SyncFields (cfg : Cfg) (n : Name) (bf : Bloom) (iblt : Table) : Prop :=
  ∃ c1 c2 c3 c4 count fpp, n = cfg.syncPrefix ++ [SYNC, c1, c2, c3, c4] ∧
    readNni c1.value = some count ∧ readNni c2.value = some fpp ∧
    Bloom.ofComponent cfg.libm cfg.extraSalt (count % 4294967296) (cfg.libm.ofThousandths fpp) c3 = .ok bf ∧
    Table.initialize cfg.ibltCodec cfg.expected c4 = .ok iblt

/-- The Interest name `n` asks with the fields in `key`: it is `key`, or `key` with two more components (a
version and a segment number). -/
def AsksFor (n key : Name) : Prop := n = key ∨ ∃ v g, n = key ++ [v, g]

/-- From `s` to `s'` the Interest `i` for `key` was parked and nothing else happened: nothing was sent or stored, and
the entry under `key` holds the filter and IBF of the Interest and is to be dropped when its lifetime is over. -/
def ParkedAs (s s' : Part) (i : Interest) (key : Name) (bf : Bloom) (iblt : Table) : Prop :=
  s'.log = s.log ∧ s'.base = s.base ∧ s'.pub = s.pub ∧
  (∃ e, s'.pending.find key = some e ∧ e.timer = some (s.now + i.lifetime) ∧ e.expKey = i.name ∧ e.bf = bf ∧
    e.iblt = iblt) ∧
  ∀ m, m ≠ key → s'.pending.find m = s.pending.find m

/-- `ds` is what is sent at once for the Interest name `iname` when the names in `content` are published under
`key/<IBF>`, where `t` is the IBF. -/
def PartReply (cfg : Cfg) (t : Table) (iname key : Name) (content : List Name) (ds : List Data) : Prop :=
  ∃ c, t.toComponent cfg.ibltCodec = .ok c ∧
    SentFor iname (key ++ [c]) (encodeNames content) cfg.freshness ds

/-- What becomes of the parked Interests `before` when a producer with the IBF `t` publishes `p` with the
number `x`: the packets `ds` are sent, the Interests `after` stay parked.  Each Interest is treated by
itself. -/
inductive Served (cfg : Cfg) (t : Table) (p : Name) (x : Nat) :
    List (Name × PPending) → List Data → List (Name × PPending) → Prop
  | nil : Served cfg t p x [] [] []
  | undecodable (n : Name) (e : PPending) (diff : IBLTDiff) {es ds kept} :
      Table.diff cfg.fuel t e.iblt = .ok diff → diff.canDecode = false →
      Served cfg t p x es ds kept → Served cfg t p x ((n, e) :: es) ds kept
  | subscribed (n : Name) (e : PPending) (diff : IBLTDiff) (packets : List Data) {es ds kept} :
      Table.diff cfg.fuel t e.iblt = .ok diff → diff.canDecode = true → e.bf.contains p = .ok true →
      PartReply cfg t n n [Name.appendNumber p x] packets →
      Served cfg t p x es ds kept → Served cfg t p x ((n, e) :: es) (packets ++ ds) kept
  | behind (n : Name) (e : PPending) (diff : IBLTDiff) (packets : List Data) {es ds kept} :
      Table.diff cfg.fuel t e.iblt = .ok diff → diff.canDecode = true → e.bf.contains p = .ok false →
      cfg.expected / 2 ≤ diff.positive.length + diff.negative.length → PartReply cfg t n n [] packets →
      Served cfg t p x es ds kept → Served cfg t p x ((n, e) :: es) (packets ++ ds) kept
  | keep (n : Name) (e : PPending) (diff : IBLTDiff) {es ds kept} :
      Table.diff cfg.fuel t e.iblt = .ok diff → diff.canDecode = true → e.bf.contains p = .ok false →
      diff.positive.length + diff.negative.length < cfg.expected / 2 →
      Served cfg t p x es ds kept → Served cfg t p x ((n, e) :: es) ds ((n, e) :: kept)

end PSync.Spec
