import Verif.Model.ParallelFrames
import Verif.Spec.FrameObjects
import Verif.Spec.ParallelSession
/-
The same program with frame objects in the serial and in the parallel build.
-/
namespace Verif
open Verif.NetCDF

variable {α : Type}

/-- What a program of the serial build is in the parallel one: all processes end in the same way, with the same file and memory, and
the file is in the collective mode. -/
def framesInParallel (r : Res Unit × Disk α × World α) : Joint Unit × Disk α × ParWorld α := (together r.1, r.2.1, ⟨r.2.2, false⟩)

/-- The programs use the file one after the other, in the parallel build. -/
def runSessionsPar (conv : Conv α) (convI : Conv Int) : Disk α → List (FrameSession α) → List (Joint Unit × Disk α × ParWorld α)
  | _, [] => []
  | d, u :: us =>
      let r := useFramesPar conv convI u.mode (u.ranks.map FileRank.colls) d u.mem u.prog
      r :: runSessionsPar conv convI r.2.1 us

end Verif
