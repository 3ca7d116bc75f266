import Verif.Spec.Address
import Verif.Model.GradientField
/-
Specification vocabulary: the value of a stored field at component, sub-point and pixel, by the strides
the field reports to its users.
-/
namespace Verif
open Verif.Collection

variable {α U : Type}

/-- The number of the component `cc` when the first index runs fastest. -/
def componentNo : List Int → List Int → Int
  | n :: shape, c :: cc => c + n * componentNo shape cc
  | _, _ => 0

/-- The value stored for component `cc`, sub-point `s` and the pixel at `x`: what is in memory at the
place given by the strides of the sub-point view. -/
def valueAt (c : Coll α U) (f : Field α U) (cc : List Int) (s : Int) (x : List Int) : Option α :=
  match (c.layout f).strides .subPt 1 with
  | .ok st => Coll.Field.mem f (dot st (cc ++ s :: List.zipWith (· - ·) x c.pixels.loc))
  | _ => none

/-- The field a reference stands for. -/
def FieldAt.find (a : FieldAt) (w : List (Coll α U)) : Option (Field α U) :=
  match w[a.coll]? with
  | some c => c.fields.find a.name
  | none => none

/-- All data of a collection except its fields. -/
def sameFrame (c c' : Coll α U) : Prop := { c' with fields := c.fields } = c

/-- The collections are the same up to the values of the field `o`. -/
structure OnlyValues (o : FieldAt) (w w' : List (Coll α U)) : Prop where
  /-- as many collections -/
  length_eq : w'.length = w.length
  /-- the data of the collections are untouched -/
  frame : ∀ (i : Nat) (h : i < w.length) (h' : i < w'.length), sameFrame w[i] w'[i]
  /-- so are all other fields -/
  others : ∀ a : FieldAt, a ≠ o → a.find w' = a.find w
  /-- and the field itself apart from its values -/
  self : ∀ f, o.find w = some f → ∃ f', o.find w' = some f' ∧ { f' with vals := f.vals } = f ∧
    f'.vals.length = f.vals.length

end Verif
