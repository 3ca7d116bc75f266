import Verif.Model.Wrapped
import Mathlib.Logic.Function.Basic
import Verif.Spec.Address
/-
Specification: the elements of a field on existing memory.
-/
namespace Verif.WrappedMemory
open Verif Verif.RawMemory Verif.Layout Verif.Layout.FieldLayout Verif.Numpy

variable {α : Type}

/-- `s` are the strides of the elements (component, sub-point, pixel), which are in different cells. -/
structure WField.HasStrides (f : WField) (s : List Int) : Prop where
  strides : f.field.strides .subPt 1 = .ok s
  length_eq : s.length = (f.field.layout.shape .subPt).length
  inj : ∀ c c', InBox (f.field.layout.shape .subPt) c → InBox (f.field.layout.shape .subPt) c' → dot s c = dot s c' → c = c'

/-- The memory has the values `val` in the elements of the field. -/
def Elems (f : WField) (s : List Int) (m : Mem α) (val : List Int → α) : Prop :=
  ∀ t, InBox (f.field.layout.shape .subPt) t → m (f.base + dot s t) = some (val t)

/-- The cell `a` belongs to an element of the field. -/
def Cell (f : WField) (s : List Int) (a : Int) : Prop := ∃ t, InBox (f.field.layout.shape .subPt) t ∧ f.base + dot s t = a

/-- The elements are the first `size` cells from the pointer. -/
def Tight (f : WField) (s : List Int) : Prop := ∀ k, Cell f s (f.base + k) ↔ 0 ≤ k ∧ k < f.size

/-- The values after a statement. -/
def WOp.eval [Inhabited α] [Add α] [Sub α] [Neg α] (env : Nat → List Int → α) : WOp → Nat → List Int → α
  | .assign a b => Function.update env a (env b)
  | .neg a b => Function.update env a fun t => -env b t
  | .plus a b => Function.update env a fun t => env a t + env b t
  | .minus a b => Function.update env a fun t => env a t - env b t
  | .zero a => Function.update env a fun _ => default

/-- The field that a statement changes. -/
def WOp.dst : WOp → Nat
  | .assign a _ => a
  | .neg a _ => a
  | .plus a _ => a
  | .minus a _ => a
  | .zero a => a

/-- The other field of a statement. -/
def WOp.src : WOp → Option Nat
  | .assign _ b => some b
  | .neg _ b => some b
  | .plus _ b => some b
  | .minus _ b => some b
  | .zero _ => none

end Verif.WrappedMemory
