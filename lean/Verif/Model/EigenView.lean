import Verif.Model.FieldArith
/-
Model of the matrices that show a field: `eigen_map`, `eigen_sub_pt` and `eigen_pixel`,
`/repo/src/libmugrid/field_typed.cc` 340-374 and 475-515.  `Eigen::Map` of a dynamic matrix is column-major;
coefficients outside the matrix violate a precondition of Eigen (`ub`).  `eigen_mat`, field_typed.hh 168-170, is
declared but not defined.
-/
namespace Verif.FieldArith
open Verif Verif.Ccoord Verif.Layout Verif.Collection Verif.Collection.Coll

variable {α U : Type}

/-- The matrix `Eigen_map(data_ptr, nb_rows, nb_cols)`: its shape.  field_typed.cc 354 and 373. -/
structure EigenMat where
  rows : Int
  cols : Int
  deriving DecidableEq, Repr

/-- `eigen_map`, field_typed.cc 340-374. -/
def eigenMap (srt : SortFn) (c : Coll α U) (f : Field α U) (rows cols : Int) : Res EigenMat :=
  if ¬ c.initialised then .throw .fieldError
  else do
    let b ← isBufferContiguous srt (c.layout f).pixShape ((c.layout f).pixelsStrides 1)
    if b then pure ⟨rows, cols⟩ else .throw .fieldError

/-- `eigen_sub_pt`, field_typed.cc 475-489. -/
def eigenSubPt (srt : SortFn) (c : Coll α U) (f : Field α U) : Res EigenMat :=
  if f.nbEntries c.nbPixels = Unknown then .throw .fieldError
  else eigenMap srt c f f.nbComp (f.nbEntries c.nbPixels)

/-- `eigen_pixel`, field_typed.cc 493-515; the division by zero sub-points is undefined. -/
def eigenPixel (srt : SortFn) (c : Coll α U) (f : Field α U) : Res EigenMat :=
  if f.nbEntries c.nbPixels = Unknown then .throw .fieldError
  else if f.nbSub = 0 then .ub
  else eigenMap srt c f (f.nbComp * f.nbSub) ((f.nbEntries c.nbPixels).tdiv f.nbSub)

/-- The place in the buffer of a coefficient, column-major: `Eigen::Map`, field_typed.hh 113-117. -/
def EigenMat.place (m : EigenMat) (i j : Int) : Int := i + j * m.rows

/-- Reading a coefficient of the matrix of the field `f`.  `Eigen::Map`, field_typed.hh 113-117. -/
def EigenMat.coeff (m : EigenMat) (f : Field α U) (i j : Int) : Res α :=
  if 0 ≤ i ∧ i < m.rows ∧ 0 ≤ j ∧ j < m.cols ∧ f.fresh then
    match f.vals[(m.place i j).toNat]? with
    | some v => .ok v
    | none => .ub
  else .ub

/-- Assignment to a coefficient of the matrix of the field `f`.  `Eigen::Map`, field_typed.hh 113-117. -/
def EigenMat.setCoeff (m : EigenMat) (f : Field α U) (i j : Int) (v : α) : Res (Field α U) :=
  if 0 ≤ i ∧ i < m.rows ∧ 0 ≤ j ∧ j < m.cols ∧ f.fresh ∧ m.place i j < f.vals.length then
    .ok { f with vals := f.vals.set (m.place i j).toNat v }
  else .ub

/-- Reading a column of the matrix.  `Eigen::Map`, field_typed.hh 113-117. -/
def EigenMat.col (m : EigenMat) (f : Field α U) (j : Int) : Res (List α) :=
  if 0 ≤ m.rows ∧ 0 ≤ j ∧ j < m.cols ∧ f.fresh ∧ (j + 1) * m.rows ≤ f.vals.length then
    .ok ((f.vals.drop (j * m.rows).toNat).take m.rows.toNat)
  else .ub

end Verif.FieldArith
