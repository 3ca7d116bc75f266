import Verif.Model.FileHandles
import Verif.Spec.FileSystem
/-
Objects with the files that they are for, without any handles: what a program with file objects is expected to do.
-/
namespace Verif
open Verif.NetCDF Verif.PyFile

variable {α : Type}

/-- The files, and the objects of the program: the name of the file for an object that is open, `none` for one that is closed. -/
structure NamedSystem (α : Type) where
  fs : FileSystem α
  objs : Nat → Option (Option String)

/-- A step on the files. -/
abbrev PlainOp (α : Type) := FsOp (Memory α) (Memory α) (OpenArgs α)

/-- Do a step on the files and change the objects.  The outcome is that of the step. -/
def NamedSystem.plain (s : NamedSystem α) (op : PlainOp α) (objs : Nat → Option (Option String)) :
    Option (Res Unit) × NamedSystem α :=
  let r := s.fs.step op
  (some r.1, ⟨r.2, objs⟩)

/-- One step.  A call on an object that is open is a call on its file; a call on one that is closed leaves everything as it is, and
the outcome is left open here (`none`).  A second `close` is refused. -/
def NamedSystem.step (s : NamedSystem α) :
    ObjOp (Memory α) (Memory α) (OpenArgs α) → Option (Res Unit) × NamedSystem α
  | .start mem => s.plain (.start mem) fun _ => none
  | .openFile k name mode a =>
      match s.objs k, s.fs.objs name with
      | none, none =>
          s.plain (.openFile name mode a)
            (if ((s.fs.step (.openFile name mode a)).2.objs name).isSome then putObj s.objs k (some (some name)) else s.objs)
      | _, _ => (some .ub, s)
  | .close k =>
      match s.objs k with
      | some (some name) => s.plain (.close name) (putObj s.objs k (some none))
      | some none => (some (.throw .fileIOError), s)
      | none => (some .ub, s)
  | .drop k =>
      match s.objs k with
      | some (some name) => s.plain (.close name) (putObj s.objs k none)
      | some none => (some (.ok ()), { s with objs := putObj s.objs k none })
      | none => (some .ub, s)
  | .on k op =>
      match s.objs k with
      | some (some name) => s.plain (.on name op) s.objs
      | some none => (none, s)
      | none => (some .ub, s)
  | .compute mem => s.plain (.compute mem) s.objs

/-- A sequence of steps. -/
def NamedSystem.run : NamedSystem α → List (ObjOp (Memory α) (Memory α) (OpenArgs α)) → List (Option (Res Unit)) × NamedSystem α
  | s, [] => ([], s)
  | s, op :: ops =>
      let r := s.step op
      let q := r.2.run ops
      (r.1 :: q.1, q.2)

/-- No files and no program. -/
def NamedSystem.empty : NamedSystem α := ⟨FileSystem.empty, fun _ => none⟩

/-- The outcome is the one expected; a call on a closed object returns or throws `FileIOError`. -/
def OutcomeIs (r : Res Unit) : Option (Res Unit) → Prop
  | some e => r = e
  | none => r = .ok () ∨ r = .throw .fileIOError

/-- The library gives every file that it opens an id that is not in use and not negative. -/
def GivesFresh (fresh : List Int → Int) : Prop := ∀ ids, 0 ≤ fresh ids ∧ fresh ids ∉ ids

/-- The step on files that a step on objects comes to: none for a call on a closed object. -/
def NamedSystem.fileStep (s : NamedSystem α) : ObjOp (Memory α) (Memory α) (OpenArgs α) → Option (PlainOp α)
  | .start mem => some (.start mem)
  | .openFile _ name mode a => some (.openFile name mode a)
  | .close k | .drop k => match s.objs k with
      | some (some name) => some (.close name)
      | _ => none
  | .on k op => match s.objs k with
      | some (some name) => some (.on name op)
      | _ => none
  | .compute mem => some (.compute mem)

/-- The same for a sequence of steps. -/
def NamedSystem.fileSteps : NamedSystem α → List (ObjOp (Memory α) (Memory α) (OpenArgs α)) → List (Option (PlainOp α))
  | _, [] => []
  | s, op :: ops => s.fileStep op :: (s.step op).2.fileSteps ops

/-- The entries of the first list where the second one has one. -/
def pickSome {β γ : Type} : List β → List (Option γ) → List β
  | b :: bs, some _ :: cs => b :: pickSome bs cs
  | _ :: bs, none :: cs => pickSome bs cs
  | _, _ => []

/-- No step is made on an object that does not exist, no object is made where there is one, and no file is opened twice at a time. -/
def NamedSystem.Fits : NamedSystem α → List (ObjOp (Memory α) (Memory α) (OpenArgs α)) → Prop
  | _, [] => True
  | s, op :: ops =>
      (match op with
        | .openFile k name _ _ => s.objs k = none ∧ s.fs.objs name = none
        | .close k | .drop k | .on k _ => s.objs k ≠ none
        | _ => True) ∧ (s.step op).2.Fits ops

end Verif
