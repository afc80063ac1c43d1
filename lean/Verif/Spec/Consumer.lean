import Verif.Model.Consumer
import Verif.Spec.Sync
/-!
What a consumer is supposed to do, stated over its API calls, `isSubscribed`, `getSeqNo`, the callbacks and
the Interests it sends.
-/
namespace PSync.Spec

/-- The API calls the application makes during an event. -/
def callsIn : Cons.Op → List Cons.Call
  | .call c => [c]
  | .helloComplete _ a1 a2 => a1 ++ a2
  | .syncComplete _ a => a
  | _ => []

/-- The names in a hello or sync content (none if it cannot be read). -/
def contentNames (buf : Bytes) : List Name :=
  match StateMsg.wireDecode buf with
  | .ok st => st.content
  | _ => []

/-- The prefixes and numbers a content announces, in order. -/
def announcements (buf : Bytes) : List (Name × Nat) := (contentNames buf).filterMap announced

/-- `l` lists the subscriptions, each at least once. -/
def Lists (l : List Name) (s : Cons) : Prop := ∀ n, n ∈ l ↔ s.isSubscribed n = true

/-- The filter a consumer with these options starts with. -/
def freshFilter (cfg : CCfg) : Res Bloom := Bloom.new cfg.libm cfg.extraSalt cfg.bfCount cfg.bfFpp

/-- `n` is a sync Interest name made of the filter `bf` and the IBF `ib`. -/
def IsSyncInterest (cfg : CCfg) (bf : Bloom) (ib n : Name) : Prop :=
  ∃ t, cfg.libm.toThousandths bf.fpp = some t ∧
    n = cfg.syncPrefix ++ [SYNC, ⟨8, nniBytes bf.projected⟩, ⟨8, nniBytes t⟩, ⟨8, bf.bits⟩] ++ ib

end PSync.Spec
