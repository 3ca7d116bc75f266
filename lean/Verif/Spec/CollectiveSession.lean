import Verif.Model.CollectiveSession
import Verif.Spec.Collective
import Verif.Spec.ParallelSession
import Verif.Spec.FileSession
/-
When the processes of a program that uses a file have what belongs together.
-/
namespace Verif.NetCDF
open Verif

variable {α : Type}

/-- A call ends on all processes in the same way. -/
def Joint.Agreed {β : Type} : Joint β → Prop
  | .ok _ => True
  | .throw _ => True
  | .ub => False
  | .apart => False

instance {β : Type} (j : Joint β) : Decidable j.Agreed := by
  cases j <;> simp only [Joint.Agreed] <;> infer_instance

/-- All `n` processes have a part of each variable and of its hidden variable, memory for it, and entries for their pixels. -/
structure ParWorld.Matched (n : Nat) (p : ParWorld α) : Prop where
  parts : ∀ x ∈ p.sess.vars, x.parts.length = n ∧
    ∀ v ∈ x.parts, v.Registered ∧ v.name = x.name ∧ v.field.isGlobal = x.localName.isNone
  mem : ∀ x ∈ p.sess.vars, (p.mem x.name).length = n
  marks : ∀ x ∈ p.sess.vars, ∀ l, x.localName = some l → (p.sess.marks l).length = n
  hidden : ∀ x ∈ p.sess.vars, ∀ l, x.localName = some l → ∀ vs, p.sess.hidden l = some vs → vs.length = n ∧
    ∀ v ∈ vs, v.Registered ∧ v.name = l ∧ v.field.isGlobal = true

/-- A memory with a part for each of `n` processes and each variable. -/
def MemoryOf (n : Nat) (names : List String) (mem : Memory α) : Prop := ∀ x ∈ names, (mem x).length = n

/-- The operation gives every process its memory. -/
def FileOp.Sized (n : Nat) (names : List String) : FileOp (Memory α) → Prop
  | .compute mem => MemoryOf n names mem
  | _ => True

end Verif.NetCDF

namespace Verif
open Verif.NetCDF

/-- All processes of a program register the same collections, each with its own part, and the pixels of the local collections lie
in the subdomain of the process. -/
structure CallsAlike (rs : List FileRank) : Prop where
  alike : ∀ r ∈ rs, ∀ r' ∈ rs, List.Forall₂ IoColl.Alike r.colls r'.colls
  placed : ∀ r ∈ rs, Placed (registerAll r.colls)

section
variable {α : Type}

/-- The program is one that can use a file with the data of `rs`, and its processes make the same calls.  Nothing is said about
the values in memory and about whether the calls succeed. -/
structure FileUse.Prepared (dom : List Int) (rs : List FileRank) (u : FileUse α) : Prop where
  ok : ProgramOk dom u.ranks
  data : SameData rs u.ranks
  mode : u.mode = .read ∨ u.mode = .append
  mem : MemoryOf u.ranks.length (storedNames u.ranks) u.mem
  ops : ∀ op ∈ u.ops, op.Sized u.ranks.length (storedNames u.ranks)
  names : ∀ op ∈ u.ops, NoLocalNames u.ranks op
  counted : Counted u.ranks
  alike : CallsAlike u.ranks

/-- The programs use the file one after the other, and the processes of each come to their end. -/
def UsesReturn (conv : Conv α) (convI : Conv Int) : Disk α → List (FileUse α) → Prop
  | _, [] => True
  | d, u :: us =>
      (AllReturn fun i : Fin u.ranks.length => useTrace conv convI u.mode (u.ranks.map FileRank.colls) d u.mem u.ops i) ∧
        UsesReturn conv convI (useFilePar conv convI u.mode (u.ranks.map FileRank.colls) d u.mem u.ops).disk us

end
end Verif
