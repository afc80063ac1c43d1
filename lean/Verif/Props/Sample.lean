import Verif.Model.Consumer
import Verif.Props.Bloom
/-!
Concrete configurations for the non-vacuity examples.
-/
namespace PSync

/-- A one-component name. -/
def nameOf (bs : Bytes) : Name := [⟨8, bs⟩]

/-- The value of a computation that is known to succeed; only used in the non-vacuity examples. -/
def Res.get? {α : Type} : Res α → Option α
  | .ok a => some a
  | _ => none

/-- Capacity 4 (6 cells), no compression, 1 s lifetime and freshness. -/
def sampleCfg : Cfg where
  expected := 4
  syncPrefix := nameOf [115]
  ibltCodec := Codec.none
  contentCodec := Codec.none
  freshness := 1000
  helloFreshness := 1000
  lifetime := 1000
  imsLimit := 100
  jitter := fun n => 100 + n % 2
  version := fun n => n + 1
  fuel := 40
  libm := sampleLibm
  extraSalt := fun _ => 0#32

theorem none_lossless : Codec.none.Lossless := fun x => ⟨x, rfl, rfl⟩

theorem sampleCfg_wf : sampleCfg.WF :=
  ⟨fun n => Nat.le_add_right 100 _, fun n => by simp only [sampleCfg, MAX_JITTER]; omega, none_lossless, none_lossless⟩

end PSync
