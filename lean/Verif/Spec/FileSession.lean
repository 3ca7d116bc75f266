import Verif.Model.FileSession
import Verif.Spec.File
/-
What a user expects of a file: a table with one row per frame and one column per variable, in which
`write` puts the present values.
-/
namespace Verif
open Verif.NetCDF

/-- The values of a variable: entry of the history (0 for a field that is not a state field), component,
sub-point and pixel of the whole domain. -/
abbrev Values (α : Type) := Nat → List Int → Int → List Int → α

/-- The frame meant by a number: negative numbers count from the end. -/
def meantFrame (nb frame : Int) : Option Int :=
  if 0 ≤ frame ∧ frame < nb then some frame
  else if frame < 0 ∧ 0 ≤ nb + frame then some (nb + frame)
  else none

/-- The table, the number of frames and the present values of the variables; whether the file is open for
writing. -/
structure Table (V : Type) where
  writable : Bool
  nb : Int
  cur : String → V
  cell : Int → String → Option V

/-- Put the present value of `n` into frame `fr`. -/
def Table.put {V : Type} (t : Table V) (fr : Int) (n : String) : Table V :=
  { t with cell := fun f m => if f = fr ∧ m = n then some (t.cur n) else t.cell f m }

/-- Give the variable `n` a value. -/
def Table.set {V : Type} (t : Table V) (n : String) (v : V) : Table V :=
  { t with cur := fun m => if m = n then v else t.cur m }

/-- Put the values of the names into the frame meant by the number, up to the first name that is unknown or
the first for which there is no such frame; whether all were put. -/
def Table.write {V : Type} (known : List String) (frame : Int) : List String → Table V → Bool × Table V
  | [], t => (true, t)
  | n :: ns, t =>
      if t.writable = true ∧ n ∈ known then
        match meantFrame t.nb frame with
        | some fr => Table.write known frame ns (t.put fr n)
        | none => (false, t)
      else (false, t)

/-- Give the variables the values of the frame meant by the number, up to the first name that is unknown, the
first for which there is no such frame, or the first that has no value there; whether all were found. -/
def Table.read {V : Type} (known : List String) (frame : Int) : List String → Table V → Bool × Table V
  | [], t => (true, t)
  | n :: ns, t =>
      if n ∈ known then
        match meantFrame t.nb frame with
        | some fr =>
            match t.cell fr n with
            | some v => Table.read known frame ns (t.set n v)
            | none => (false, t)
        | none => (false, t)
      else (false, t)

/-- One operation: whether it succeeds, and the table afterwards. -/
def Table.step {V : Type} (known : List String) (t : Table V) : FileOp (String → V) → Bool × Table V
  | .appendFrame => (true, { t with nb := t.nb + 1 })
  | .write frame names => t.write known frame names
  | .writeAll frame => t.write known frame known
  | .read frame names => t.read known frame names
  | .readAll frame => t.read known frame known
  | .compute c => (true, { t with cur := c })

/-- The variable has been written at some frame. -/
def HasCell {V : Type} (cell : Int → String → Option V) (n : String) : Prop := ∃ fr v, cell fr n = some v

/-- The variables that are read have been written before: at that frame, or anywhere if there is no such
frame. -/
def Table.Filled {V : Type} (known : List String) (t : Table V) (frame : Int) (names : List String) : Prop :=
  ∀ n ∈ names, n ∈ known →
    match meantFrame t.nb frame with
    | some fr => t.cell fr n ≠ none
    | none => HasCell t.cell n

/-- The operation reads only what has been written. -/
def Table.ReadsFilled {V : Type} (known : List String) (t : Table V) : FileOp (String → V) → Prop
  | .read frame names => t.Filled known frame names
  | .readAll frame => t.Filled known frame known
  | _ => True

/-- A sequence of operations. -/
def Table.run {V : Type} (known : List String) : Table V → List (FileOp (String → V)) → List Bool × Table V
  | t, [] => ([], t)
  | t, op :: ops =>
      let r := t.step known op
      let q := r.2.run known ops
      (r.1 :: q.1, q.2)

/-- No operation of the sequence reads what has not been written. -/
def Table.NoGaps {V : Type} (known : List String) : Table V → List (FileOp (String → V)) → Prop
  | _, [] => True
  | t, op :: ops => t.ReadsFilled known op ∧ (t.step known op).2.NoGaps known ops

/-- The same operation in a program and in the description of what it is expected to do; `R` relates the
memory to the values in it. -/
inductive SameOp {C D : Type} (R : C → D → Prop) : FileOp C → FileOp D → Prop
  | appendFrame : SameOp R .appendFrame .appendFrame
  | write (frame : Int) (names : List String) : SameOp R (.write frame names) (.write frame names)
  | writeAll (frame : Int) : SameOp R (.writeAll frame) (.writeAll frame)
  | read (frame : Int) (names : List String) : SameOp R (.read frame names) (.read frame names)
  | readAll (frame : Int) : SameOp R (.readAll frame) (.readAll frame)
  | compute {c : C} {d : D} (h : R c d) : SameOp R (.compute c) (.compute d)

/-- If the operation writes, the variable that comes first is not a local one. -/
def FirstNot (isLocal : String → Prop) (all : List String) {C : Type} : FileOp C → Prop
  | .write _ names => ∀ n, names.head? = some n → ¬ isLocal n
  | .writeAll _ => ∀ n, all.head? = some n → ¬ isLocal n
  | _ => True

/-- In a file opened for reading, the first variable that is to be written is not a local one.  (The file refuses every
request to write, but for a local variable whose entries have not been read there is no request: `C66_silent`.) -/
def Refused (vars : List SessVar) {C : Type} (op : FileOp C) : Prop :=
  FirstNot (fun n => ∃ x ∈ vars, x.name = n ∧ x.localName ≠ none) (vars.map SessVar.name) op

/-- The names handed to `write` and `read` are not those of hidden variables. -/
def NoHidden (vars : List SessVar) (hidden : String → Option (List Var)) {C : Type} : FileOp C → Prop
  | .write _ names => ∀ n ∈ names, n ∈ vars.map SessVar.name ∨ hidden n = none
  | .read _ names => ∀ n ∈ names, n ∈ vars.map SessVar.name ∨ hidden n = none
  | _ => True

end Verif
