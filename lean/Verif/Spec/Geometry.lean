import Mathlib.Algebra.Order.Field.Basic
/-
Specification vocabulary: boxes in space.  Independent of the model.
-/
namespace Verif

variable {K : Type} [Field K] [LinearOrder K]

/-- `low_i ≤ x_i < low_i + size_i` in every direction, and equal dimensions: the point `x` lies in the
box with corner `low` and edges `size`. -/
def InCell : List K → List K → List K → Prop
  | [], [], [] => True
  | a :: low, s :: size, x :: xs => a ≤ x ∧ x < a + s ∧ InCell low size xs
  | _, _, _ => False

/-- The edges of one pixel of a box with edges `lengths` that is cut into `n_i` equal parts in each
direction. -/
def pixelEdges : List Int → List K → List K
  | n :: nb, l :: lengths => (l / (n : K)) :: pixelEdges nb lengths
  | _, _ => []

end Verif
