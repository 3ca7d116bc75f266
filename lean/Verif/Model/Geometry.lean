import Verif.Model.Ccoord
import Mathlib.Algebra.Field.Defs
/-
Physical positions and volumes of pixels, cubes of equal extents, and the python functions that number
the pixels of a grid: `/repo/src/libmugrid/ccoord_operations.hh`, `.cc` and
`/repo/language_bindings/python/bind_py_common_mugrid.cc`.

`Real` is an arbitrary field `K`: rounding is not modelled.
-/
namespace Verif.Geometry
open Verif Verif.Ccoord

/-- `get_cube` with the dimension as a template argument, ccoord_operations.hh 54-65 and 124-129; in
python `get_1d_cube`, `get_2d_cube` and `get_3d_cube`, bind_py_common_mugrid.cc 106-112. -/
def getCube {T : Type} (dim : Nat) (n : T) : List T := List.replicate dim n

/-- `get_cube` with the dimension as an argument, ccoord_operations.hh 131-151. -/
def dynGetCube (dim n : Int) : Res (List Int) :=
  if dim = 1 then .ok (getCube 1 n)
  else if dim = 2 then .ok (getCube 2 n)
  else if dim = 3 then .ok (getCube 3 n)
  else .throw .runtimeError

variable {K : Type} [Field K]

/-- The loop of `get_vector` with one size of pixels per direction, ccoord_operations.hh 164-197 and
213-250.  (The dimensions are equal by the types, or by the assertions 191, 217, 230, 243-244; without
assertions the longer argument is cut off here, while the code would read past the shorter one.) -/
def getVector : List Int → List K → List K
  | c :: cc, p :: pix => (p * (c : K)) :: getVector cc pix
  | _, _ => []

/-- `get_vector` for cubic pixels, ccoord_operations.hh 153-162 and 199-210. -/
def getVectorCubic (cc : List Int) (pix : K) : List K := cc.map fun c : Int => pix * (c : K)

/-- The loop of `compute_volume`, ccoord_operations.hh 485-505; it starts from 1. -/
def computeVolume (vol : K) : List K → K
  | [] => vol
  | l :: lengths => computeVolume (vol * l) lengths

/-- The loop of `compute_pixel_volume`, ccoord_operations.cc 71-81, over the zip of both arguments, which
ends with the shorter one (`C42_zip`).  Division by zero, which gives infinity or not-a-number, is
`none`. -/
def pixelVolumeLoop [DecidableEq K] (vol : K) : List Int → List K → Option K
  | n :: nb, l :: lengths =>
      if (n : K) = 0 then none else pixelVolumeLoop (vol * (l / (n : K))) nb lengths
  | _, _ => some vol

/-- `compute_pixel_volume`, ccoord_operations.cc 71-81. -/
def pixelVolume [DecidableEq K] (nb : List Int) (lengths : List K) : Option K := pixelVolumeLoop 1 nb lengths

/-- The overloads of the python functions: one for each of the dimensions 1, 2 and 3; lists of other
lengths, or of different lengths, are a `TypeError`.  bind_py_common_mugrid.cc 134-136 and 151-155. -/
def pyDims (nb : List Int) : Bool := nb.length == 1 || nb.length == 2 || nb.length == 3

/-- `get_domain_ccoord` in python, bind_py_common_mugrid.cc 114-125; `none` is a `TypeError`. -/
def domainCcoord (nb : List Int) (i : Int) : Option (Res (List Int)) :=
  if pyDims nb then some (getCcoord nb (List.replicate nb.length 0) i) else none

/-- `get_domain_index` in python, bind_py_common_mugrid.cc 138-149, with the `int` it computes in;
`none` is a `TypeError`. -/
def domainIndex (nb cc : List Int) : Option (Res Int) :=
  if pyDims nb ∧ cc.length = nb.length then some (getIndex32 nb (List.replicate nb.length 0) cc) else none

end Verif.Geometry
