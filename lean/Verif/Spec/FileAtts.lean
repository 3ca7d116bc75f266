import Verif.Model.FileAtts
/-
Specification vocabulary for the global attributes of files: a list of attributes with names, types and values that a user
of a file expects.
-/
namespace Verif
open Verif.NetCDFAtt Verif.NetCDF

variable {V : Type}

/-- What a user expects of the global attributes of an open file.  `isNew`: the program has created the file; `writable`: it
was not opened for reading only; `stored`: the attributes are in the file (a new file gets them with the first data, or when
it is closed); `touched`: the program has changed the file; `registered`: it has registered variables. -/
structure AttTable (V : Type) where
  isNew : Bool
  writable : Bool
  stored : Bool
  touched : Bool
  registered : Bool
  entries : List (FileAtt V)

namespace AttTable

def names (t : AttTable V) : List String := t.entries.map FileAtt.name

/-- An attribute can be replaced by one of the same type that is not larger, neither the name nor the value, if the new name
is free. -/
def Replaceable (t : AttTable V) (e : FileAtt V) (new : String) (ty : NcType) (value : List V) : Prop :=
  t.writable ∧ t.stored ∧ e.ty = ty ∧ value.length ≤ e.value.length ∧ new.utf8ByteSize ≤ e.name.utf8ByteSize ∧
    (new = e.name ∨ new ∉ t.names)

instance (t : AttTable V) (e : FileAtt V) (new : String) (ty : NcType) (value : List V) :
    Decidable (t.Replaceable e new ty value) := by unfold Replaceable; infer_instance

/-- What a call does, and if it succeeds.  Any call of `write` stores the attributes, also one that fails. -/
def step (t : AttTable V) : AttOp V → Bool × AttTable V
  | .writeAtt name ty value =>
      if t.isNew ∧ ¬ t.stored ∧ name ∉ t.names then (true, { t with entries := t.entries ++ [⟨name, ty, value⟩] })
      else (false, t)
  | .updateAtt old new ty value =>
      match t.entries.find? fun e => e.name = old with
      | some e =>
          if t.Replaceable e new ty value then
            (true, { t with entries := t.entries.map fun f => if f.name = old then ⟨new, ty, value⟩ else f, touched := true })
          else (false, t)
      | none => (false, t)
  | .register => (true, { t with touched := t.touched || t.isNew, registered := true })
  | .writeData =>
      if t.writable ∧ t.registered then (true, { t with stored := true, touched := true })
      else (false, { t with stored := true })

def run (t : AttTable V) : List (AttOp V) → List Bool × AttTable V
  | [] => ([], t)
  | op :: ops => ((t.step op).1 :: ((t.step op).2.run ops).1, ((t.step op).2.run ops).2)

/-- The attributes after the file has been closed: if the program has changed the file, the date and the time of the last
change are replaced, which is expected to be possible. -/
def closed (t : AttTable V) (date time : List V) : Bool × List (FileAtt V) :=
  if t.touched ∧ t.writable then
    let r1 := { t with stored := true }.step (.updateAtt "last_modified_date" "last_modified_date" .char date)
    let r2 := r1.2.step (.updateAtt "last_modified_time" "last_modified_time" .char time)
    (r1.1 && r2.1, r2.2.entries)
  else (true, t.entries)

/-- No call renames an attribute to a name that is in use. -/
def NoClash (t : AttTable V) : List (AttOp V) → Prop
  | [] => True
  | op :: ops =>
      (match op with | .updateAtt old new _ _ => new = old ∨ new ∉ t.names | _ => True) ∧ (t.step op).2.NoClash ops

/-- What reading an attribute returns: that of the table, or an exception. -/
def Reads (t : AttTable V) (n : String) (r : Res (Att V)) : Prop :=
  match t.entries.find? fun e => e.name = n with
  | some e => ∃ a, r = .ok a ∧ ⟨a.name, a.ty, a.value⟩ = e
  | none => r = .throw .fileIOError

end AttTable

/-- The call has the expected outcome. -/
def Meets (o : Res Unit) (b : Bool) : Prop := o = if b then .ok () else .throw .fileIOError

/-- There is an attribute of that name whose value is a text of at least `k` characters. -/
def HasRoom (l : List (FileAtt V)) (n : String) (k : Nat) : Prop :=
  ∃ e, l.find? (fun e => e.name = n) = some e ∧ e.ty = .char ∧ k ≤ e.value.length

/-- The call does not update the date or the time of the last change, and does not use their names. -/
def KeepsDates : AttOp V → Prop
  | .updateAtt old new _ _ => (old ≠ "last_modified_date" ∧ new ≠ "last_modified_date") ∧
      old ≠ "last_modified_time" ∧ new ≠ "last_modified_time"
  | _ => True

/-- One use of a file that exists: it is opened in a mode, the calls are made, and it is closed at the given date and
time. -/
structure AttUse (V : Type) where
  mode : OpenMode
  ops : List (AttOp V)
  date : List V
  time : List V

/-- The table of a file that has been opened. -/
def AttUse.table (u : AttUse V) (file : List (FileAtt V)) : AttTable V :=
  ⟨false, decide (u.mode = .append), true, false, false, file⟩

/-- Collections are registered before attributes are updated (`seen`: some call to update came before). -/
def Orderly : Bool → List (AttOp V) → Prop
  | _, [] => True
  | _, .updateAtt _ _ _ _ :: ops => Orderly true ops
  | seen, .register :: ops => seen = false ∧ Orderly seen ops
  | seen, _ :: ops => Orderly seen ops

/-- The values have one of the types for which there is an overload. -/
def Typed : AttOp V → Prop
  | .writeAtt _ ty _ => ty.stored = true
  | _ => True

/-- The attributes of a file: different names, and types that the class knows. -/
structure AttsOk (file : List (FileAtt V)) : Prop where
  nodup : (file.map FileAtt.name).Nodup
  types : ∀ f ∈ file, f.ty.stored = true

/-- A use of a file with these attributes that fulfils all conditions. -/
structure AttUseOk (file : List (FileAtt V)) (u : AttUse V) : Prop where
  mode : u.mode = .read ∨ u.mode = .append
  typed : ∀ op ∈ u.ops, Typed op
  noClash : (u.table file).NoClash u.ops
  orderly : Orderly false u.ops
  closes : (((u.table file).run u.ops).2.closed u.date u.time).1 = true

/-- The attributes after one use of the file. -/
def AttUse.after (u : AttUse V) (file : List (FileAtt V)) : List (FileAtt V) :=
  (((u.table file).run u.ops).2.closed u.date u.time).2

/-- All uses fulfil the conditions, one after the other. -/
def AttUsesOk : List (FileAtt V) → List (AttUse V) → Prop
  | _, [] => True
  | file, u :: us => AttUseOk file u ∧ AttUsesOk (u.after file) us

/-- The attributes after several uses. -/
def afterUses : List (FileAtt V) → List (AttUse V) → List (FileAtt V)
  | file, [] => file
  | file, u :: us => afterUses (u.after file) us

end Verif
