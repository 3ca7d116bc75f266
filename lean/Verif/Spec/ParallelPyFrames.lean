import Verif.Model.ParallelPyFrames
import Verif.Spec.PyFrames
import Verif.Spec.CollectiveFrames
/-
The same python program with frame objects and iterators in the serial and in the parallel build.
-/
namespace Verif
open Verif.NetCDF

variable {α : Type}

/-- All processes get the same from a step. -/
def allGet : Res (PyFrameOut Int) → Joint (PyFrameOut Int)
  | .ok x => .ok x
  | .throw e => .throw e
  | .ub => .ub

/-- What a program of the serial build is in the parallel one: all processes get the same from every step, with the same file and
memory, and the file is in the collective mode. -/
def pyInParallel (r : List (Res (PyFrameOut Int)) × Disk α × World α) : List (Joint (PyFrameOut Int)) × Disk α × ParWorld α :=
  (r.1.map allGet, r.2.1, ⟨r.2.2, false⟩)

/-- The programs use the file one after the other, in the parallel build. -/
def runPySessionsPar (conv : Conv α) (convI : Conv Int) : Disk α → List (PyFrameSession α) →
    List (List (Joint (PyFrameOut Int)) × Disk α × ParWorld α)
  | _, [] => []
  | d, u :: us =>
      let r := usePyFramesPar conv convI u.mode (u.ranks.map FileRank.colls) d u.mem u.steps
      r :: runPySessionsPar conv convI r.2.1 us

/-- Something holds of the values that a step gives the fields. -/
def NetCDF.PyFrameStep.Computes {C : Type} (P : C → Prop) : PyFrameStep C → Prop
  | .compute c => P c
  | _ => True

/-- The programs use the file one after the other, and the processes of each come to their end. -/
def PySessionsReturn (conv : Conv α) (convI : Conv Int) : Disk α → List (PyFrameSession α) → Prop
  | _, [] => True
  | d, u :: us =>
      (AllReturn fun i : Fin u.ranks.length => usePyTrace conv convI u.mode (u.ranks.map FileRank.colls) d u.mem u.steps i) ∧
        PySessionsReturn conv convI (usePyFramesPar conv convI u.mode (u.ranks.map FileRank.colls) d u.mem u.steps).2.1 us

end Verif
