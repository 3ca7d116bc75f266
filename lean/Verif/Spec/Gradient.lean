import Verif.Spec.Box
/-
Specification vocabulary for finite-element gradients on a periodic grid.  Independent of the model.
-/
namespace Verif

/-- The pixel reached from `x` by the displacement `o` on a periodic grid with extents `nb` and
origin zero. -/
def wrap (nb x o : List Int) : List Int :=
  List.zipWith (fun a n => a % n) (List.zipWith (fun a b => a + b) x o) nb

/-- The `d` lowest binary digits of `k`, lowest first: the corner number `k` of a pixel. -/
def corner : Nat → Nat → List Int
  | 0, _ => []
  | d + 1, k => ((k % 2 : Nat) : Int) :: corner d (k / 2)

end Verif
