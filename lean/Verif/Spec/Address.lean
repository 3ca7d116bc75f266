import Verif.Spec.Box
/-
Specification vocabulary: when strides give the elements of a box their own place in a buffer.
-/
namespace Verif

/-- Every multi-index of the box has an offset in `[0, size)`, and no two have the same. -/
structure Addressing (shape strides : List Int) (size : Int) : Prop where
  /-- one stride per axis -/
  length_eq : strides.length = shape.length
  /-- offsets are within the buffer -/
  bounds : ∀ c, InBox shape c → 0 ≤ dot strides c ∧ dot strides c < size
  /-- distinct elements have distinct offsets -/
  inj : ∀ c c', InBox shape c → InBox shape c' → dot strides c = dot strides c' → c = c'

/-- Every place of the buffer is used. -/
def Fills (shape strides : List Int) (size : Int) : Prop :=
  ∀ i, 0 ≤ i → i < size → ∃ c, InBox shape c ∧ dot strides c = i

end Verif
