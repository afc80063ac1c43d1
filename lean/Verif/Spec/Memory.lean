import Verif.Model.Full
import Verif.Model.Partial
import Verif.Model.Consumer
import Verif.Spec.Sync
/-!
Spec for C106: how much a node remembers.
-/
namespace PSync.Spec

/-- The event tells the full-sync node of the prefix `p`: the application adds it, by itself or in a callback, or a complete reply has a
name that announces it. -/
def TellsFull (cfg : Cfg) (op : Full.Op) (p : Name) : Prop :=
  op = .call (.addUserNode p) ∨
  ∃ buf acts, op = .complete buf acts ∧
    (Full.Call.addUserNode p ∈ acts ∨
     ∃ raw st n q, cfg.contentCodec.decompress buf = some raw ∧ StateMsg.wireDecode raw = .ok st ∧ n ∈ st.content ∧
       announced n = some (p, q))

/-- The event tells the consumer of the prefix `p`: the application subscribes to it, by itself or in a callback, or a complete sync
reply has a name that announces it. -/
def TellsCons (op : Cons.Op) (p : Name) : Prop :=
  (∃ q cb, op = .call (.addSubscription p q cb)) ∨
  (∃ buf a1 a2 q cb, op = .helloComplete buf a1 a2 ∧ Cons.Call.addSubscription p q cb ∈ a1 ++ a2) ∨
  (∃ buf acts, op = .syncComplete buf acts ∧
    ((∃ q cb, Cons.Call.addSubscription p q cb ∈ acts) ∨
     ∃ st n q, StateMsg.wireDecode buf = .ok st ∧ n ∈ st.content ∧ announced n = some (p, q)))

end PSync.Spec
