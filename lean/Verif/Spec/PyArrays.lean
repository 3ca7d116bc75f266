import Verif.Spec.Box
import Verif.Model.PySession
/-
Specification vocabulary: what a python user takes a field collection to be, a dictionary of numpy arrays.
Every field is an array with the axes (components…, sub-point, pixels…).  Independent of buffers, strides and
storage orders; the types of the calls and the indexing of numpy are those of the model.
-/
namespace Verif.PyArrays
open Verif Verif.Collection Verif.Layout Verif.Numpy Verif.RawMemory Verif.PySession

/-- A field as the user sees it: `val` gives the element at the index (components…, sub-point, pixels…). -/
structure Arr (α U : Type) where
  ty : ElemType
  comps : List Int
  tag : String
  nb : Int
  unit : U
  val : List Int → α

/-- The collection as the user sees it: the grid, the known numbers of sub-points, and the arrays. -/
structure Dict (α U : Type) where
  grid : List Int
  tags : String → Option Int
  arrs : String → Option (Arr α U)

/-- `f.p` has no axis for the sub-points: they are counted with the last component.  Index in `f.p` of the
element at an index of `f.s`. -/
def toP : List Int → List Int → List Int
  | [], _ :: x => x
  | [n], i :: q :: x => (i + n * q) :: x
  | _ :: comps, i :: y => i :: toP comps y
  | _, [] => []

/-- Index in `f.s` of the element at an index of `f.p`. -/
def fromP : List Int → List Int → List Int
  | [], x => 0 :: x
  | [n], i :: x => i % n :: i / n :: x
  | _ :: comps, i :: z => i :: fromP comps z
  | _, [] => []

/-- The shape of `f.p`. -/
def shapeP : List Int → Int → List Int → List Int
  | [], _, grid => grid
  | [n], nb, grid => n * nb :: grid
  | n :: comps, nb, grid => n :: shapeP comps nb grid

variable {α U : Type} [Inhabited α] [DecidableEq U]

namespace Arr

/-- The shape of `f.s` and `f.p`; a field without components but with several sub-points has no `f.p`. -/
def shape (a : Arr α U) (grid : List Int) : IterUnit → Option (List Int)
  | .subPt => some (a.comps ++ a.nb :: grid)
  | .pixel => if a.comps = [] ∧ a.nb ≠ 1 then none else some (shapeP a.comps a.nb grid)

/-- Index in the view of the element at an index (components…, sub-point, pixels…). -/
def toView (a : Arr α U) : IterUnit → List Int → List Int
  | .subPt, y => y
  | .pixel, y => toP a.comps y

/-- Index (components…, sub-point, pixels…) of the element at an index of the view. -/
def ofView (a : Arr α U) : IterUnit → List Int → List Int
  | .subPt, z => z
  | .pixel, z => fromP a.comps z

end Arr

namespace Dict

/-- Exchange one array. -/
def put (d : Dict α U) (name : String) (a : Arr α U) : Dict α U :=
  { d with arrs := fun n => if n = name then some a else d.arrs n }

/-- Components given as a number or as a shape describe the array. -/
def Describes (comps : Comps) (a : Arr α U) : Prop :=
  match comps with
  | .num n => nbPixels a.comps = n
  | .shape s => a.comps = s

instance (comps : Comps) (a : Arr α U) : Decidable (Describes comps a) := by
  unfold Describes; split <;> infer_instance

/-- `register_*_field` and `*_field`: a new array of zeros, or the existing one. -/
def field (d : Dict α U) (name : String) (ty : ElemType) (comps : Comps) (tag : String) (unit : U) (new : Bool) :
    Res (Out α) × Dict α U :=
  match d.arrs name with
  | some a =>
      if new then (.throw .fieldCollectionError, d)
      else if a.ty ≠ ty then (.throw .runtimeError, d)
      else if Describes comps a ∧ a.tag = tag ∧ a.unit = unit then (.ok .nothing, d)
      else (.throw .fieldCollectionError, d)
  | none =>
      match d.tags tag with
      | none => (.throw .fieldError, d)
      | some n => (.ok .nothing, d.put name ⟨ty, comps.toShape, tag, n, unit, fun _ => default⟩)

/-- `set_nb_sub_pts`: once given, the number stays. -/
def setNbSubPts (d : Dict α U) (tag : String) (n : Int) : Res (Out α) × Dict α U :=
  if n < 1 ∨ (d.tags tag).isSome ∧ d.tags tag ≠ some n then (.throw .fieldCollectionError, d)
  else (.ok .nothing, { d with tags := fun t => if t = tag then some n else d.tags t })

/-- `f.s = a` and `f.p = a`. -/
def assign (d : Dict α U) (name : String) (it : IterUnit) (a : NpArray) (inp : Mem α) : Res (Out α) × Dict α U :=
  match d.arrs name with
  | none => (.throw .fieldCollectionError, d)
  | some f =>
      if f.shape d.grid it = some a.shape then
        (.ok .nothing, d.put name { f with val := fun y => (inp (dot a.strides (f.toView it y))).getD default })
      else (.throw .runtimeError, d)

/-- `f.s[idx] = v` and `f.p[idx] = v`. -/
def setItem (d : Dict α U) (name : String) (it : IterUnit) (idx : List Int) (v : α) : Res (Out α) × Dict α U :=
  match d.arrs name with
  | none => (.throw .fieldCollectionError, d)
  | some f =>
      match f.shape d.grid it with
      | none => (.throw .runtimeError, d)
      | some sh =>
          match npIndex sh idx with
          | none => (.throw .outOfRange, d)
          | some i =>
              (.ok .nothing, d.put name { f with val := fun y => if i <+: f.toView it y then v else f.val y })

/-- `f.s[idx]` and `f.p[idx]`. -/
def getItem (d : Dict α U) (name : String) (it : IterUnit) (idx : List Int) : Res (Out α) :=
  match d.arrs name with
  | none => .throw .fieldCollectionError
  | some f =>
      match f.shape d.grid it with
      | none => .throw .runtimeError
      | some sh =>
          match npIndex sh idx with
          | none => .throw .outOfRange
          | some i => .ok (.values ((npAll (sh.drop i.length)).map fun r => f.val (f.ofView it (i ++ r))))

/-- `f.set_zero()`. -/
def setZero (d : Dict α U) (name : String) : Res (Out α) × Dict α U :=
  match d.arrs name with
  | none => (.throw .fieldCollectionError, d)
  | some f => (.ok .nothing, d.put name { f with val := fun _ => default })

/-- What a call does with a dictionary of arrays. -/
def call (d : Dict α U) : PyCall α U → Res (Out α) × Dict α U
  | .field name ty comps tag unit new => d.field name ty comps tag unit new
  | .setNbSubPts tag n => d.setNbSubPts tag n
  | .assign name it a inp => d.assign name it a inp
  | .setItem name it idx v => d.setItem name it idx v
  | .getItem name it idx => (d.getItem name it idx, d)
  | .setZero name => d.setZero name
  | .exists name => (.ok (.truth (d.arrs name).isSome), d)

/-- What the calls of a program return. -/
def run (d : Dict α U) : List (PyCall α U) → List (Res (Out α)) × Dict α U
  | [] => ([], d)
  | op :: ops => let r := d.call op; let s := r.2.run ops; (r.1 :: s.1, s.2)

/-- The dictionary at the start: no arrays; `pixel` is a sub-division with one sub-point. -/
def start (grid : List Int) (sub : SMap String Int) : Dict α U :=
  ⟨grid, fun t => if t = "pixel" then some 1 else sub.find t, fun _ => none⟩

end Dict

end Verif.PyArrays
