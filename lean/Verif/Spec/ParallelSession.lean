import Verif.Model.ParallelSession
import Verif.Spec.ParallelFile
import Verif.Spec.FileRanks
/-
When sessions in the two builds can be compared.
-/
namespace Verif.NetCDF
open Verif

variable {α : Type}

/-- The state of a program in the parallel build with variables that have been registered, a file with variables of their types,
and PnetCDF in its collective mode. -/
structure ParWorld.Ready (p : ParWorld α) : Prop where
  collective : p.indep = false
  vars : ∀ x ∈ p.sess.vars, ∀ v ∈ x.parts, v.Registered
  typed : ∀ x ∈ p.sess.vars, ∀ fv, p.file.vars x.name = some fv → ∀ v ∈ x.parts, fv.ty = v.dataType
  hidden : ∀ x ∈ p.sess.vars, ∀ l, x.localName = some l → ∀ vs, p.sess.hidden l = some vs →
    ∀ v ∈ vs, v.Registered ∧ v.field.isGlobal = true
  hiddenTyped : ∀ x ∈ p.sess.vars, ∀ l, x.localName = some l → ∀ vs, p.sess.hidden l = some vs →
    ∀ fv, p.file.hidden l = some fv → ∀ v ∈ vs, fv.ty = v.dataType
  locals : ∀ x ∈ p.sess.vars, x.localName ≠ none → ∀ v ∈ x.parts, v.field.isGlobal = false

/-- The operation does not write to a file that was opened for reading. -/
def FileOp.Allowed {C : Type} (mode : OpenMode) : FileOp C → Prop
  | .write _ _ => mode ≠ .read
  | .writeAll _ => mode ≠ .read
  | _ => True

end Verif.NetCDF

namespace Verif
open Verif.NetCDF Verif.Ccoord

variable {α : Type}

/-- The fields of global collections have one entry per pixel of the part of the process. -/
def Counted (rs : List FileRank) : Prop :=
  ∀ r ∈ rs, ∀ e ∈ r.entries, e.1 = none → e.2.2.1.nbPixels = getSize e.2.2.1.layout.pixShape

/-- The name of a field of a local collection. -/
def FieldOfLocal (rs : List FileRank) (n : String) : Prop := ∃ r ∈ rs, ∃ e ∈ r.entries, e.2.1 = n ∧ e.1 ≠ none

/-- A frame number for reading may be too large, but it does not point before the first frame, unless only fields of global
collections are read.  (`C99_false` has what happens otherwise.) -/
def Table.InReach {V : Type} (isLocal : String → Prop) (known : List String) (t : Table V) : FileOp (String → V) → Prop
  | .read frame names => -t.nb ≤ frame ∨ ∀ n ∈ names, ¬ isLocal n
  | .readAll frame => -t.nb ≤ frame ∨ ∀ n ∈ known, ¬ isLocal n
  | _ => True

/-- That is so for all operations of the sequence. -/
def Table.StaysInReach {V : Type} (isLocal : String → Prop) (known : List String) : Table V → List (FileOp (String → V)) → Prop
  | _, [] => True
  | t, op :: ops => t.InReach isLocal known op ∧ (t.step known op).2.StaysInReach isLocal known ops

/-- And for all programs that use the file one after the other. -/
def UsesInReach (rs : List FileRank) : (Int → String → Option (Values α)) → List (FileUse α) → Prop
  | _, [] => True
  | cell, u :: us => ∀ nb, NbFrames cell nb →
      (u.table cell nb).StaysInReach (FieldOfLocal u.ranks) (storedNames rs) u.sops ∧
        UsesInReach rs ((u.table cell nb).run (storedNames rs) u.sops).2.cell us

/-- The same outcome on all processes. -/
def together : Res Unit → Joint Unit
  | .ok u => .ok u
  | .throw e => .throw e
  | .ub => .ub

/-- What a program does in the parallel build if it does the same as in the serial one. -/
def NetCDF.ProgramRun.inParallel (r : ProgramRun α) : ParRun α :=
  ⟨r.registered, r.results.map together, r.disk, r.mem, r.nbFrames⟩

/-- The programs use the file one after the other, in the parallel build. -/
def runUsesPar (conv : Conv α) (convI : Conv Int) : Disk α → List (FileUse α) → List (ParRun α)
  | _, [] => []
  | d, u :: us =>
      let r := useFilePar conv convI u.mode (u.ranks.map FileRank.colls) d u.mem u.ops
      r :: runUsesPar conv convI r.disk us

end Verif
