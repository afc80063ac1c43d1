import Verif.Spec.Sync
/-!
Which packet of a reply an Interest gets.
-/
namespace PSync.Spec

/-- The number of the packet that an Interest asks for: the number in its last component if that is a segment component, else 0. -/
def segmentAsked (n : Name) : Nat :=
  match n.getLast? with
  | some c => if c.type = 50 then (readNni c.value).getD 0 else 0
  | none => 0

/-- `o` is the packet with number `k` of a reply to `name` with the names in `content`; `none` if the reply has fewer packets. -/
def PacketOfReply (cfg : Cfg) (name : Name) (content : List Name) (k : Nat) (o : Option Data) : Prop :=
  ∃ v buf fr segs, IsSegmentation (name.appendVersion v) buf fr segs ∧ o = segs[k]? ∧
    cfg.contentCodec.decompress buf = some (encodeNames content)

end PSync.Spec
