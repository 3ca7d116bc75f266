/-
Outcomes of modelled C++ functions.

The library reports errors by throwing exceptions of various classes, and has inputs for which the
behaviour is undefined.  Both are distinct outcomes here.
-/
namespace Verif

/-- Exception classes of the library.
`/repo/src/libmugrid/exception.hh` (RuntimeError and its base classes),
`field_collection.hh` (FieldCollectionError), `field.hh` (FieldError), `field_map.hh`
(FieldMapError), `units.hh` (UnitError), `file_io_base.hh` (FileIOError), `numpy_tools.hh`
(NumpyError), `options_dictionary.hh` (DictionaryError, ValueError, KeyError) and the standard
`std::out_of_range` and `std::length_error`.  Messages are not modelled. -/
inductive Err
  | runtimeError
  | fieldCollectionError
  | fieldError
  | fieldMapError
  | unitError
  | fileIOError
  | numpyError
  | dictionaryError
  | valueError
  | keyError
  | outOfRange
  | lengthError
  deriving DecidableEq, Repr, Inhabited

/-- Result of a modelled function: normal return, exception, or undefined behaviour.
Exceptions: exception.hh; each kind is cited where it is thrown. -/
inductive Res (α : Type _)
  | ok (a : α)
  | throw (e : Err)
  | ub
  deriving DecidableEq, Repr

namespace Res

instance {α : Type _} : Inhabited (Res α) := ⟨.ub⟩

/-- Sequencing: the first exception or undefined behaviour ends the computation. -/
protected def bind {α β : Type _} (x : Res α) (f : α → Res β) : Res β :=
  match x with
  | .ok a => f a
  | .throw e => .throw e
  | .ub => .ub

instance : Monad Res where
  pure := .ok
  bind := Res.bind

variable {α β : Type _}

@[simp] theorem pure_eq (a : α) : (pure a : Res α) = .ok a := rfl
@[simp] theorem ok_bind (a : α) (f : α → Res β) : (Res.ok a >>= f) = f a := rfl
@[simp] theorem throw_bind (e : Err) (f : α → Res β) : ((Res.throw e : Res α) >>= f) = .throw e := rfl
@[simp] theorem ub_bind (f : α → Res β) : ((Res.ub : Res α) >>= f) = .ub := rfl

theorem bind_eq_ok {x : Res α} {f : α → Res β} {b : β} :
    (x >>= f) = .ok b ↔ ∃ a, x = .ok a ∧ f a = .ok b := by
  cases x <;> simp

end Res

/-- Unchecked element access `v[i]` of a `std::vector` or array: outside the container the
behaviour is undefined.  Instances are cited where it is used, for example ccoord_operations.hh 105-118. -/
def at! {α : Type _} (l : List α) (i : Nat) : Res α :=
  match l[i]? with
  | some a => .ok a
  | none => .ub

theorem at!_eq_ok {α : Type _} {l : List α} {i : Nat} (h : i < l.length) : at! l i = .ok l[i] := by
  simp [at!, h]

end Verif
