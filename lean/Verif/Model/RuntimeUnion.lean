import Verif.Model.Basic
/-
The union inside `RuntimeValue`, options_dictionary.hh 69-129 and options_dictionary.cc 124-195, 264-286: which of its members
is alive.  (`Dictionary.lean` has the values and how they are shared, and only those assignments that `Dictionary` makes.)
-/
namespace Verif.RuntimeUnion
open Verif

/-- `ValueType`, options_dictionary.hh 76. -/
inductive Tag
  | dictionary | int | real | matrix
  deriving DecidableEq, Repr

/-- What the memory of the union `Variant` holds, options_dictionary.hh 113-127: one of its members, or no object (`dead`, after
a destructor call). -/
inductive Store (D R : Type)
  | dead
  | dict (d : D)
  | int (i : Int)
  | real (r : R)
  | mat (m : List (List R))
  deriving DecidableEq, Repr

/-- `RuntimeValue`, options_dictionary.hh 69-129; `made` and `destroyed` count the maps and matrices constructed and destroyed
in its memory. -/
structure Value (D R : Type) where
  tag : Tag
  store : Store D R
  made : Nat
  destroyed : Nat
  deriving DecidableEq, Repr

/-- A value handed to a constructor or an assignment, options_dictionary.hh 80-91. -/
inductive Arg (D R : Type)
  | dict (d : D)
  | int (i : Int)
  | real (r : R)
  | mat (m : List (List R))
  deriving DecidableEq, Repr

variable {D R : Type}

/-- The type of a value, options_dictionary.cc 124-137. -/
def Arg.tag : Arg D R → Tag
  | .dict _ => .dictionary
  | .int _ => .int
  | .real _ => .real
  | .mat _ => .matrix

/-- The constructors, options_dictionary.cc 124-137.  (The copy constructor is declared, options_dictionary.hh 83, and not
defined.) -/
def construct : Arg D R → Value D R
  | .dict d => ⟨.dictionary, .dict d, 1, 0⟩
  | .int i => ⟨.int, .int i, 0, 0⟩
  | .real r => ⟨.real, .real r, 0, 0⟩
  | .mat m => ⟨.matrix, .mat m, 1, 0⟩

/-- `potentially_destroy_non_trivial_member`, options_dictionary.cc 269-281: by the tag; destroying a member that is not alive is
undefined. -/
def destroy (v : Value D R) : Res (Value D R) :=
  match v.tag, v.store with
  | .dictionary, .dict _ => .ok { v with store := .dead, destroyed := v.destroyed + 1 }
  | .matrix, .mat _ => .ok { v with store := .dead, destroyed := v.destroyed + 1 }
  | .dictionary, _ => .ub
  | .matrix, _ => .ub
  | _, _ => .ok v

/-- `operator=(const Int &)`, options_dictionary.cc 140-145.  Assigning to a member of trivial type makes it the active one. -/
def assignInt (v : Value D R) (i : Int) : Res (Value D R) :=
  (destroy v).bind fun w => .ok { w with store := .int i, tag := .int }

/-- `operator=(const Real &)`, options_dictionary.cc 148-153. -/
def assignReal (v : Value D R) (r : R) : Res (Value D R) :=
  (destroy v).bind fun w => .ok { w with store := .real r, tag := .real }

/-- `operator=(const Eigen::Ref<const Eigen::MatrixXd> &)`, options_dictionary.cc 156-162: the matrix is constructed in place.
`mem` tells whether there is memory for it; otherwise `std::bad_alloc` is thrown before the tag is set (the error is
`runtimeError` here). -/
def assignMat (v : Value D R) (m : List (List R)) (mem : Bool) : Res Unit × Value D R :=
  match destroy v with
  | .ok w => if mem then (.ok (), { w with store := .mat m, tag := .matrix, made := w.made + 1 }) else (.throw .runtimeError, w)
  | .throw e => (.throw e, v)
  | .ub => (.ub, v)

/-- `operator=(const Map_t &)`, options_dictionary.cc 165-170: the assignment operator of `std::map` is called for the member; it is
undefined if no map is alive there. -/
def assignMap (v : Value D R) (d : D) : Res (Value D R) :=
  (destroy v).bind fun w =>
    match w.store with
    | .dict _ => .ok { w with store := .dict d, tag := .dictionary }
    | _ => .ub

/-- `operator=(const RuntimeValue &)`, options_dictionary.cc 173-195, for another object: again the assignment operators of map and
matrix are called for the member. -/
def assignValue (v other : Value D R) : Res (Value D R) :=
  (destroy v).bind fun w =>
    match other.tag, other.store, w.store with
    | .dictionary, .dict d, .dict _ => .ok { w with store := .dict d, tag := .dictionary }
    | .int, .int i, _ => .ok { w with store := .int i, tag := .int }
    | .real, .real r, _ => .ok { w with store := .real r, tag := .real }
    | .matrix, .mat m, .mat _ => .ok { w with store := .mat m, tag := .matrix }
    | _, _, _ => .ub

/-- The same with the object itself on both sides, options_dictionary.cc 173-195: the member is destroyed before it is read. -/
def assignSelf (v : Value D R) : Res (Value D R) :=
  (destroy v).bind fun w =>
    match w.tag, w.store with
    | .int, .int _ => .ok w
    | .real, .real _ => .ok w
    | _, _ => .ub

/-- `get_int`, options_dictionary.cc 231-236: reading a member that is not the active one is undefined. -/
def getInt (v : Value D R) : Res Int :=
  if v.tag ≠ .int then .throw .valueError
  else match v.store with
    | .int i => .ok i
    | _ => .ub

/-- `get_real`, options_dictionary.cc 239-244. -/
def getReal (v : Value D R) : Res R :=
  if v.tag ≠ .real then .throw .valueError
  else match v.store with
    | .real r => .ok r
    | _ => .ub

/-- `get_matrix`, options_dictionary.cc 247-252. -/
def getMatrix (v : Value D R) : Res (List (List R)) :=
  if v.tag ≠ .matrix then .throw .valueError
  else match v.store with
    | .mat m => .ok m
    | _ => .ub

/-- The map that `add` and `get_value` use, options_dictionary.cc 198-228 and 255-261. -/
def getMap (v : Value D R) : Res D :=
  if v.tag ≠ .dictionary then .throw .valueError
  else match v.store with
    | .dict d => .ok d
    | _ => .ub

/-- An assignment of a program, options_dictionary.hh 87-91. -/
inductive Op (D R : Type)
  | value (a : Arg D R)
  | other (v : Value D R)
  | self

/-- An assignment; memory suffices.  options_dictionary.cc 140-195. -/
def step (v : Value D R) : Op D R → Res (Value D R)
  | .value (.int i) => assignInt v i
  | .value (.real r) => assignReal v r
  | .value (.mat m) =>
      match assignMat v m true with
      | (.ok _, w) => .ok w
      | (.throw e, _) => .throw e
      | (.ub, _) => .ub
  | .value (.dict d) => assignMap v d
  | .other o => assignValue v o
  | .self => assignSelf v

/-- Assignments one after the other.  Programs are not part of /repo; for options_dictionary.hh 87-91. -/
def run : Value D R → List (Op D R) → Res (Value D R)
  | v, [] => .ok v
  | v, op :: ops => (step v op).bind fun w => run w ops

end Verif.RuntimeUnion
