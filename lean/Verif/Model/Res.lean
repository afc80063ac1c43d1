/-!
Outcomes of C++ calls.  Undefined behaviour, escaping exceptions and exhaustion of the
evaluation budget of an unbounded loop are distinct outcomes, never assumed away.
-/
namespace PSync

/-- Exceptions thrown by PSync or by the ndn-cxx calls it makes. -/
inductive Err where
  | tlv          -- ndn::tlv::Error (malformed TLV, bad NonNegativeInteger)
  | iblt         -- psync::detail::IBLT::Error            PSync/detail/iblt.hpp:97-101
  | bloom        -- psync::detail::BloomFilter::Error      PSync/detail/bloom-filter.hpp:62-66
  | compression  -- psync::CompressionError / zlib errors  PSync/common.hpp:57-61
  | outOfRange   -- std::vector::at
  | badOptional  -- std::bad_optional_access (examples/producer.cpp:71, examples/full-sync.cpp:76)
  | producer     -- psync::ProducerBase::Error            PSync/producer-base.hpp:50-54
  deriving DecidableEq, Repr

/-- Kinds of undefined behaviour the modelled code can run into. -/
inductive UB where
  | signedOverflow  -- int32_t arithmetic
  | divByZero       -- integer division / remainder by zero
  | outOfBounds     -- unchecked container access
  | floatCast       -- double → integer conversion of an unrepresentable value
  | assertion       -- BOOST_ASSERT violated (no-op in release builds, then undefined)
  | useAfterFree    -- code of a destroyed object runs
  deriving DecidableEq, Repr

/-- Outcome of a call.  `hang` means the evaluation budget was exhausted. -/
inductive Res (α : Type) where
  | ok (a : α)
  | throw (e : Err)
  | ub (u : UB)
  | hang
  deriving DecidableEq, Repr

namespace Res

/-- Sequencing: what is not `ok` ends the computation. -/
@[inline] protected def bind {α β : Type} : Res α → (α → Res β) → Res β
  | ok a, f => f a
  | throw e, _ => throw e
  | ub u, _ => ub u
  | hang, _ => hang

/-- `Res` as a monad. -/
instance : Monad Res where
  pure := ok
  bind := Res.bind

/-- try { … } catch (const std::exception&) { handler }: only exceptions are caught. -/
def tryCatch {α : Type} (x : Res α) (h : Err → Res α) : Res α :=
  match x with
  | throw e => h e
  | r => r

/-- `ofOption e o`: throw `e` when the library call fails. -/
def ofOption {α : Type} (e : Err) : Option α → Res α
  | some a => ok a
  | none => throw e

variable {α β : Type}
@[simp] theorem pure_eq (a : α) : (pure a : Res α) = ok a := rfl
@[simp] theorem bind_eq (x : Res α) (f : α → Res β) : x >>= f = Res.bind x f := rfl
@[simp] theorem ok_bind (a : α) (f : α → Res β) : Res.bind (ok a) f = f a := rfl
@[simp] theorem throw_bind (e : Err) (f : α → Res β) : Res.bind (throw e) f = throw e := rfl
@[simp] theorem ub_bind (u : UB) (f : α → Res β) : Res.bind (ub u) f = ub u := rfl
@[simp] theorem hang_bind (f : α → Res β) : Res.bind hang f = hang := rfl

theorem bind_eq_ok {x : Res α} {f : α → Res β} {b : β} :
    Res.bind x f = ok b ↔ ∃ a, x = ok a ∧ f a = ok b := by
  cases x <;> simp [Res.bind]

end Res

/-- `for (x : l) s = f(s, x)` with early exit on a non-`ok` outcome. -/
def foldRes {σ ι : Type} (f : σ → ι → Res σ) : σ → List ι → Res σ
  | s, [] => .ok s
  | s, x :: l => Res.bind (f s x) (fun s' => foldRes f s' l)

end PSync
