import Verif.Model.TensorDispatch
import Mathlib.Algebra.BigOperators.Ring.Finset
/-
What the tensor operations of `tensor_algebra.hh` are for, in index notation, without matrices.
-/
namespace Verif.TensorDispatch
open Verif.Tensor

/-- A tensor of first, second or fourth order in `d` dimensions. -/
inductive Tens (d : Nat) (R : Type) where
  | one (v : Fin d → R)
  | two (A : T2 d R)
  | four (A : T4 d R)

/-- Its order. -/
def Tens.order : Tens d R → Order
  | .one _ => .first
  | .two _ => .second
  | .four _ => .fourth

/-- The matrix by which it is represented, as described in tensor_algebra.hh 136-140 and eigen_tools.hh 216-223. -/
def Tens.rep : Tens d R → Mat R
  | .one v => column v
  | .two A => square A
  | .four A => square4 A

variable [CommSemiring R]

/-- `s` is `t` with `F` applied to each index. -/
def Pushed (F : T2 d R) : Tens d R → Tens d R → Prop
  | .one t, .one s => ∀ i, s i = ∑ a, F i a * t a
  | .two t, .two s => ∀ i j, s i j = ∑ a, ∑ b, F i a * F j b * t a b
  | .four t, .four s => ∀ i j k l, get s i j k l =
      ∑ a, ∑ b, ∑ c, ∑ e, F i a * F j b * F k c * F l e * get t a b c e
  | _, _ => False

/-- `C` is the contraction of the last index of `A` with the first index of `B`, where the result is of an order
`Tens` has. -/
def Contracted : Tens d R → Tens d R → Tens d R → Prop
  | .two A, .one b, .one c => ∀ i, c i = ∑ a, A i a * b a
  | .two A, .two B, .two C => ∀ i j, C i j = ∑ a, A i a * B a j
  | .two A, .four B, .four C => ∀ i j k l, get C i j k l = ∑ a, A i a * get B a j k l
  | .four A, .two B, .four C => ∀ i j k l, get C i j k l = ∑ a, get A i j k a * B a l
  | _, _, _ => False

/-- `C` is the contraction of the last two indices of `A` with the first two of `B`. -/
def DoublyContracted : Tens d R → Tens d R → Value R → Prop
  | .two A, .two B, .number x => x = ∑ i, ∑ j, A i j * B i j
  | .four A, .two B, .matrix M => ∃ C : T2 d R, M = square C ∧ ∀ i j, C i j = ∑ k, ∑ l, get A i j k l * B k l
  | .four A, .four B, .matrix M => ∃ C : T4 d R, M = square4 C ∧
      ∀ i j k l, get C i j k l = ∑ a, ∑ b, get A i j a b * get B a b k l
  | _, _, _ => False

end Verif.TensorDispatch
