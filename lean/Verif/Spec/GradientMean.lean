import Verif.Lemmas.GradientMake
/-
Finite elements on a regular grid (property C93): where the nodes are, and what it means for given shape
function gradients to be those of elements that reproduce linear functions.  Nothing here refers to the
construction of the operator; `shapeGrad`, `nodeOf` and `cornerOf` only name the entries of its arguments.
-/
namespace Verif.GradOp
open scoped BigOperators

variable {α : Type} [CommRing α]

/-- Coordinate `c` of node `j` of the pixel at `x`, with pixels of extent `h c` and the node at `ξ j c`
(as a fraction of the extent) in its pixel. -/
def nodePos (h : Nat → α) (ξ : Nat → Nat → α) (x : List Int) (j c : Nat) : α :=
  h c * ((((x[c]?).getD 0 : Int) : α) + ξ j c)

/-- The function `b r + ∑ c, a r c · X c` of the coordinates, evaluated at the nodes. -/
def affine (dim : Nat) (a : Nat → Nat → α) (b : Nat → α) (h : Nat → α) (ξ : Nat → Nat → α)
    (x : List Int) (r j : Nat) : α :=
  b r + ∑ c ∈ Finset.range dim, a r c * nodePos h ξ x j c

/-- The shape function gradients differentiate linear functions: on every element and at every quadrature
point, `∑ᵢ ∂N(d, i) = 0` and `∑ᵢ ∂N(d, i) · (coordinate c of node i)` is one for `c = d` and zero otherwise. -/
structure Linear (shape : List (List (Mat α))) (nodalPts : List (List Int × Mat Int))
    (dim nbQuad nbElem nbElemNodes : Nat) (h : Nat → α) (ξ : Nat → Nat → α) : Prop where
  zero : ∀ e < nbElem, ∀ q < nbQuad, ∀ d < dim, ∑ i ∈ Finset.range nbElemNodes, shapeGrad shape q e d i = 0
  slope : ∀ e < nbElem, ∀ q < nbQuad, ∀ d < dim, ∀ c < dim, ∑ i ∈ Finset.range nbElemNodes,
    shapeGrad shape q e d i * nodePos h ξ (cornerOf nodalPts dim e i) (nodeOf nodalPts e i).toNat c =
      if c = d then 1 else 0

/-- The shape function gradients sum to zero over the nodes of the element that are node `j` of their pixel,
for each `j`.  With one node per pixel this is the first condition of `Linear`. -/
def BalancedNodes (shape : List (List (Mat α))) (nodalPts : List (List Int × Mat Int))
    (dim nbQuad nbElem nbElemNodes nbPixNodes : Nat) : Prop :=
  ∀ e < nbElem, ∀ q < nbQuad, ∀ d < dim, ∀ j < nbPixNodes, ∑ i ∈ Finset.range nbElemNodes,
    (if nodeOf nodalPts e i = (j : Int) then shapeGrad shape q e d i else 0) = 0

end Verif.GradOp
