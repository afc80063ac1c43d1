import Verif.Model.Full
import Verif.Model.Partial
/-!
Registration of the sync prefix with the forwarder.  Elsewhere in the model a producer is registered from the start.
-/
namespace PSync

/-- What happens to a producer: the forwarder's answer, or an event of the producer itself. -/
inductive RegOp (α : Type) where
  | succeeded
  | failed
  | op (o : α)
  deriving DecidableEq, Repr

/-- A PartialProducer; `ready`: the forwarder has accepted the prefix. -/
structure RegPart where
  prod : Part
  ready : Bool

namespace RegPart

/-- PSync/partial-producer.cpp:41-49.  The two Interest filters are set by the callback for success, so the face drops Interests that
arrive before.  The callback for failure calls `onRegisterFailed` (PSync/producer-base.cpp:139-144), which throws.  The forwarder answers
once: a failure after a success does not happen. -/
def step (cfg : Cfg) (s : RegPart) : RegOp Part.Op → Res RegPart
  | .succeeded => .ok { s with ready := true }
  | .failed => if s.ready then .ok s else .throw .producer
  | .op (.recvInterest i) =>
    if s.ready then Res.bind (Part.step cfg s.prod (.recvInterest i)) fun p => .ok { s with prod := p } else .ok s
  | .op o => Res.bind (Part.step cfg s.prod o) fun p => .ok { s with prod := p }

def run (cfg : Cfg) (s : RegPart) (ops : List (RegOp Part.Op)) : Res RegPart := foldRes (step cfg) s ops

/-- PSync/partial-producer.cpp:34-50 constructor. -/
def init (cfg : Cfg) : RegPart := ⟨Part.init cfg, false⟩

def Reach (cfg : Cfg) (s : RegPart) : Prop := ∃ ops, run cfg (init cfg) ops = .ok s

end RegPart

/-- A FullProducer; `ready`: the forwarder has accepted the prefix. -/
structure RegFull where
  node : Full
  ready : Bool

namespace RegFull

/-- PSync/full-producer.cpp:43-45: the Interest filter is set at once, and so is the sync Interest sent (line 49); only a failure of the
registration has an effect. -/
def step (cfg : Cfg) (s : RegFull) : RegOp Full.Op → Res RegFull
  | .succeeded => .ok { s with ready := true }
  | .failed => if s.ready then .ok s else .throw .producer
  | .op o => Res.bind (Full.step cfg s.node o) fun n => .ok { s with node := n }

def run (cfg : Cfg) (s : RegFull) (ops : List (RegOp Full.Op)) : Res RegFull := foldRes (step cfg) s ops

/-- PSync/full-producer.cpp:34-50 constructor. -/
def init (cfg : Cfg) : Res RegFull := Res.bind (Full.init cfg) fun n => .ok ⟨n, false⟩

def Reach (cfg : Cfg) (s : RegFull) : Prop := ∃ s0 ops, init cfg = .ok s0 ∧ run cfg s0 ops = .ok s

end RegFull
end PSync
