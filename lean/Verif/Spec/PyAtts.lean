import Verif.Model.PyAtts
import Verif.Spec.FileAtts
/-
Specification vocabulary for global attributes in python: a dictionary of texts and lists of numbers.
-/
namespace Verif
open Verif.NetCDFAtt Verif.NetCDF Verif.Reduce Verif.PyAtts

variable {ρ : Type}

/-- `a == b` in python, for real numbers; `eqInt x v`: the number `x` is the integer `v`. -/
def SameNum (eqInt : ρ → Int → Prop) : PyNum ρ → PyNum ρ → Prop
  | .int v, .int w => v = w
  | .int v, .float x => eqInt x v
  | .float x, .int v => eqInt x v
  | .float x, .float y => x = y
  | .other x, .int v => eqInt x v
  | .other x, .float y => x = y
  | _, _ => False

/-- The python values are equal: texts, or sequences of equal numbers. -/
def SameVal (eqInt : ρ → Int → Prop) : PyVal ρ → PyVal ρ → Prop
  | .str s, .str t => s = t
  | .seq xs, .seq ys => List.Forall₂ (SameNum eqInt) xs ys
  | _, _ => False

/-- An `int` between the limits of a type of 32 or 64 bits. -/
def IsInt (lo hi : Int) : PyNum ρ → Prop
  | .int v => lo ≤ v ∧ v ≤ hi
  | _ => False

instance (lo hi : Int) (x : PyNum ρ) : Decidable (IsInt lo hi x) := by cases x <;> unfold IsInt <;> infer_instance

/-- The type in the file that a python program expects: text, or the first of the integers of 32 bits, the unsigned ones,
and those of 64 bits that can hold all numbers, or `double`. -/
def kindOf : PyVal ρ → NcType
  | .str _ => .char
  | .seq xs =>
      if ∀ x ∈ xs, IsInt (-2^31) (2^31 - 1) x then .int
      else if ∀ x ∈ xs, IsInt 0 (2^32 - 1) x then .uint
      else if ∀ x ∈ xs, IsInt (-2^63) (2^63 - 1) x then .int64
      else .double
  | _ => .other

/-- The size of a value: bytes of a text, or numbers. -/
def sizeOfVal : PyVal ρ → Nat
  | .str s => s.utf8ByteSize
  | .seq xs => xs.length
  | _ => 0

/-- A number that is a `float` or an `int` which is exactly a `double`. -/
def IsReal (cv : Conv ρ) (eqInt : ρ → Int → Prop) : PyNum ρ → Prop
  | .float _ => True
  | .int v => ∃ x, cv.ofInt v = some x ∧ eqInt x v
  | _ => False

/-- The values of which the claim is proved: texts, lists of `int` of 64 bits, and lists of `float` and small `int`. -/
def PlainVal (cv : Conv ρ) (eqInt : ρ → Int → Prop) : PyVal ρ → Prop
  | .str _ => True
  | .seq xs => (∀ x ∈ xs, IsInt (-2^63) (2^63 - 1) x) ∨ ∀ x ∈ xs, IsReal cv eqInt x
  | _ => False

/-- What a python program expects of the attributes of an open file: a dictionary.  See `AttTable` for the flags. -/
structure PyTable (ρ : Type) where
  isNew : Bool
  writable : Bool
  stored : Bool
  touched : Bool
  registered : Bool
  entries : List (String × PyVal ρ)

namespace PyTable

def names (t : PyTable ρ) : List String := t.entries.map (·.1)

/-- An attribute can be replaced by one of the same type that is not larger, neither the name nor the value, if the new name
is free. -/
def Replaceable (t : PyTable ρ) (e : String × PyVal ρ) (new : String) (v : PyVal ρ) : Prop :=
  t.writable ∧ t.stored ∧ kindOf e.2 = kindOf v ∧ sizeOfVal v ≤ sizeOfVal e.2 ∧ new.utf8ByteSize ≤ e.1.utf8ByteSize ∧
    (new = e.1 ∨ new ∉ t.names)

instance (t : PyTable ρ) (e : String × PyVal ρ) (new : String) (v : PyVal ρ) : Decidable (t.Replaceable e new v) := by
  unfold Replaceable; infer_instance

/-- What a call does, and if it succeeds.  Any call of `write` stores the attributes, also one that fails. -/
def step (t : PyTable ρ) : PyAttOp ρ → Bool × PyTable ρ
  | .write name v =>
      if t.isNew ∧ ¬ t.stored ∧ name ∉ t.names then (true, { t with entries := t.entries ++ [(name, v)] })
      else (false, t)
  | .update old new v =>
      match t.entries.find? fun e => e.1 = old with
      | some e =>
          if t.Replaceable e new v then
            (true, { t with entries := t.entries.map fun f => if f.1 = old then (new, v) else f, touched := true })
          else (false, t)
      | none => (false, t)
  | .register => (true, { t with touched := t.touched || t.isNew, registered := true })
  | .data =>
      if t.writable ∧ t.registered then (true, { t with stored := true, touched := true })
      else (false, { t with stored := true })

def run (t : PyTable ρ) : List (PyAttOp ρ) → List Bool × PyTable ρ
  | [] => ([], t)
  | op :: ops => ((t.step op).1 :: ((t.step op).2.run ops).1, ((t.step op).2.run ops).2)

/-- The attributes after the file has been closed: if the program has changed the file, the date and the time of the last
change are replaced, which is expected to be possible. -/
def closed (t : PyTable ρ) (date time : String) : Bool × List (String × PyVal ρ) :=
  if t.touched ∧ t.writable then
    let r1 := { t with stored := true }.step (.update "last_modified_date" "last_modified_date" (.str date))
    let r2 := r1.2.step (.update "last_modified_time" "last_modified_time" (.str time))
    (r1.1 && r2.1, r2.2.entries)
  else (true, t.entries)

/-- No call renames an attribute to a name that is in use. -/
def NoClash (t : PyTable ρ) : List (PyAttOp ρ) → Prop
  | [] => True
  | op :: ops =>
      (match op with | .update old new _ => new = old ∨ new ∉ t.names | _ => True) ∧ (t.step op).2.NoClash ops

end PyTable

/-- The values that the call passes fulfil a condition. -/
def Passes (P : PyVal ρ → Prop) : PyAttOp ρ → Prop
  | .write _ v => P v
  | .update _ _ v => P v
  | _ => True

/-- Collections are registered before attributes are updated (`seen`: some call to update came before). -/
def PyOrderly : Bool → List (PyAttOp ρ) → Prop
  | _, [] => True
  | _, .update _ _ _ :: ops => PyOrderly true ops
  | seen, .register :: ops => seen = false ∧ PyOrderly seen ops
  | seen, _ :: ops => PyOrderly seen ops

/-- The dictionary that is read is the expected one: the same names in the same order, and equal values. -/
def ReadsAll (eqInt : ρ → Int → Prop) (r : Res (List (String × PyVal ρ))) (entries : List (String × PyVal ρ)) : Prop :=
  ∃ l, r = .ok l ∧ List.Forall₂ (fun e f => e.1 = f.1 ∧ SameVal eqInt e.2 f.2) entries l

/-- The value that is read is the expected one, or there is no attribute of this name. -/
def ReadsOne (eqInt : ρ → Int → Prop) (r : Res (PyVal ρ)) (name : String) (entries : List (String × PyVal ρ)) : Prop :=
  match entries.find? fun e => e.1 = name with
  | some e => ∃ v, r = .ok v ∧ SameVal eqInt e.2 v
  | none => r = .throw .fileIOError

/-- The attributes of a new file. -/
def _root_.Verif.PyAtts.PyAuto.entries (v : PyAuto) : List (String × PyVal ρ) :=
  [("creation_date", .str v.date), ("creation_time", .str v.time), ("last_modified_date", .str v.date),
    ("last_modified_time", .str v.time), ("muGrid_version_info", .str v.info), ("muGrid_git_hash", .str v.hash),
    ("muGrid_description", .str v.description), ("muGrid_git_branch_is_dirty", .str v.dirty)]

/-- One use of a file that exists: it is opened in a mode, the calls are made, and it is closed at the given date and
time. -/
structure PyUse (ρ : Type) where
  mode : OpenMode
  ops : List (PyAttOp ρ)
  date : String
  time : String

/-- The dictionary of a file that has been opened. -/
def PyUse.table (u : PyUse ρ) (d : List (String × PyVal ρ)) : PyTable ρ :=
  ⟨false, decide (u.mode = .append), true, false, false, d⟩

/-- The conditions on the uses of a file with the attributes `d`; if a file cannot be closed, there is nothing more to be
said. -/
def PyUsesOk (P : PyVal ρ → Prop) : List (String × PyVal ρ) → List (PyUse ρ) → Prop
  | _, [] => True
  | d, u :: us => (u.mode = .read ∨ u.mode = .append) ∧ (∀ op ∈ u.ops, Passes P op) ∧ (u.table d).NoClash u.ops ∧
      PyOrderly false u.ops ∧ PyUsesOk P (((u.table d).run u.ops).2.closed u.date u.time).2 us

/-- What the uses of a file do and read, one after the other, is what they are expected to: opening reads the dictionary
`d`; the calls succeed or fail as expected; after them the expected values are read; closing succeeds when expected, and
leaves the expected dictionary for the next use. -/
def UsesShow (cv : Conv ρ) (eqInt : ρ → Int → Prop) [DecidableEq ρ] :
    List (FileAtt (Cell ρ)) → List (String × PyVal ρ) → List (PyUse ρ) → Prop
  | _, _, [] => True
  | file, d, u :: us => ∃ s, AttFile.openFile u.mode file = .ok s ∧ ReadsAll eqInt (pyReadAll s) d ∧
      List.Forall₂ Meets (pyRun cv s u.ops).1 ((u.table d).run u.ops).1 ∧
      ReadsAll eqInt (pyReadAll (pyRun cv s u.ops).2) ((u.table d).run u.ops).2.entries ∧
      (∀ n, ReadsOne eqInt (pyRead (pyRun cv s u.ops).2 n) n ((u.table d).run u.ops).2.entries) ∧
      Meets ((pyRun cv s u.ops).2.close (text u.date) (text u.time)).1 (((u.table d).run u.ops).2.closed u.date u.time).1 ∧
      ((((u.table d).run u.ops).2.closed u.date u.time).1 = true →
        UsesShow cv eqInt ((pyRun cv s u.ops).2.close (text u.date) (text u.time)).2.file
          (((u.table d).run u.ops).2.closed u.date u.time).2 us)

end Verif
