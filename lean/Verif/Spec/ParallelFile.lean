import Verif.Model.ParallelFile
import Verif.Spec.File
/-
What transfers in the parallel build are compared with.
-/
namespace Verif.NetCDF
open Verif Verif.Ccoord Verif.RawMemory Verif.FileIO
open Verif.NetCDFAtt (NcType)

variable {α : Type}

/-- The variable belongs to a field of an initialised collection and was made by the registration of that field. -/
def Var.Registered (v : Var) : Prop :=
  (∃ vname f hidden hist grid grid', GlobalField f ∧ (hidden = true → f.layout.nbSub = 1) ∧
    f.nbPixels = getSize f.layout.pixShape ∧ registerGlobalVar vname f hidden hist grid = .ok (v, grid')) ∨
  ∃ vname f n hist total lname marks, LocalField f n ∧ 0 < total ∧ registerLocalVar vname f hist total lname marks = .ok v

/-- The variable in the file has elements of the type of the field (that is so in every file that was written with the same
field; C83 has other files). -/
def ParFile.Typed (s : ParFile α) (v : Var) : Prop := ∀ fv, s.var v.name = some fv → fv.ty = v.dataType

/-- Converting to the same type changes nothing. -/
def Conv.Faithful (conv : Conv α) : Prop := ∀ t x, conv t t x = x

/-- The outcome alone. -/
def outcome {β : Type} : Res β → Res Unit
  | .ok _ => .ok ()
  | .throw e => .throw e
  | .ub => .ub

/-- The outcome `q` of a transfer in the parallel build fits the outcome `r` in the serial build, for a file `s` and a memory `buf`: the
same exception or none, the same file and the same memory afterwards; after an exception both are as before. -/
def Fits (s : ParFile α) (buf : Mem α) (r : Res (ParFile α × Mem α)) (q : Res Unit × ParFile α × Mem α) : Prop :=
  q.1 = outcome r ∧ (∀ s' b, r = .ok (s', b) → q.2 = (s', b)) ∧
    ((∀ p, r ≠ .ok p) → q.2.1.var = s.var ∧ q.2.1.numrecs = s.numrecs ∧ q.2.2 = buf)

end Verif.NetCDF
