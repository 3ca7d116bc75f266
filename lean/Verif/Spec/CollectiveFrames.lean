import Verif.Model.CollectiveFrames
import Verif.Spec.CollectiveSession
import Verif.Spec.ParallelFrames
/-
Programs with frame objects whose processes all come to their end.
-/
namespace Verif
open Verif.NetCDF

/-- Something holds of all values that a program gives its fields. -/
def NetCDF.FrameProg.Computes {C : Type} (P : C → Prop) : FrameProg C → Prop
  | .done => True
  | .take _ p => p.Computes P
  | .append p => p.Computes P
  | .use _ _ p => p.Computes P
  | .compute c p => P c ∧ p.Computes P
  | .forEach b p => b.Computes P ∧ p.Computes P
  | .attempt b p => b.Computes P ∧ p.Computes P

variable {α : Type}

/-- The programs use the file one after the other, and the processes of each come to their end. -/
def SessionsReturn (conv : Conv α) (convI : Conv Int) : Disk α → List (FrameSession α) → Prop
  | _, [] => True
  | d, u :: us =>
      (AllReturn fun i : Fin u.ranks.length => useFramesTrace conv convI u.mode (u.ranks.map FileRank.colls) d u.mem u.prog i) ∧
        SessionsReturn conv convI (useFramesPar conv convI u.mode (u.ranks.map FileRank.colls) d u.mem u.prog).2.1 us

end Verif
