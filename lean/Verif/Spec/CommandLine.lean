import Verif.Model.CommandLine
/-!
Spec for C101: the command lines of the example programs.
-/
namespace PSync.Spec

/-- The number that a text of digits stands for. -/
def textValue : Bytes → Nat
  | [] => 0
  | d :: r => (d.toNat - 48) * 10 ^ r.length + textValue r

/-- The text is the number, in decimal (leading zeros are allowed). -/
def IsNumber (t : Bytes) (n : Nat) : Prop := t ≠ [] ∧ (∀ d ∈ t, 48 ≤ d.toNat ∧ d.toNat ≤ 57) ∧ textValue t = n

/-- C101: whatever the command line of an example producer is, if it is accepted the streams have different names. -/
def StreamsDistinct : Prop :=
  ∀ (typed : Bytes → Option Component) (env : PubAppCfg) (args : List Bytes) (cfg : PubAppCfg),
    pubMain typed env args = .running cfg → cfg.streams.Nodup

/-- A text that begins with one slash and has no equal sign: "/a/b". -/
def PlainText (u : Bytes) : Prop := 61#8 ∉ u ∧ ∃ b r, u = 47#8 :: b :: r ∧ b ≠ 47#8

/-- A text of the form "//host", with no further slash. -/
def HostOnly (u : Bytes) : Prop := ∃ r, u = 47#8 :: 47#8 :: r ∧ 47#8 ∉ r

end PSync.Spec
