import Verif.Model.Basic
import Verif.Model.SMap
import Mathlib.Data.String.Basic
/-
`RuntimeValue` and `Dictionary`, `/repo/src/libmugrid/options_dictionary.hh` and `.cc`.

A `Dictionary` is a `std::shared_ptr<RuntimeValue>`; sharing is observable.  The model is a heap of
runtime values addressed by their position, and a list of handles (the `Dictionary` objects of the
program).  Nodes are never removed from the heap: a value that no handle leads to cannot be observed
(destruction of values is in `DictMemory.lean`; `C89_same` shows that it makes no difference here).
-/
namespace Verif

/-- `RuntimeValue`, options_dictionary.hh 69-129: the tag `ValueType` and the union.  `Real` is a type
parameter, a matrix is the list of its rows. -/
inductive DVal (R : Type) where
  | dict (m : SMap String Nat)
  | int (i : Int)
  | real (r : R)
  | mat (m : List (List R))
  deriving DecidableEq, Repr

/-- A value that can be passed to `add` or `operator=` (options_dictionary.hh 156-159, 173-178). -/
inductive DScalar (R : Type) where
  | int (i : Int)
  | real (r : R)
  | mat (m : List (List R))
  deriving DecidableEq, Repr

variable {R : Type}

/-- `RuntimeValue(const T &)`, options_dictionary.cc 124-133. -/
def DScalar.val : DScalar R → DVal R
  | .int i => .int i
  | .real r => .real r
  | .mat m => .mat m

/-- The `RuntimeValue` objects and the `Dictionary` objects of a program (pointers to the former).
options_dictionary.hh 69-181. -/
structure DState (R : Type) where
  heap : List (DVal R)
  handles : List Nat
  deriving DecidableEq, Repr

namespace DState

/-- The object `*this->ptr` of handle `h`.  Member `ptr`: options_dictionary.hh 181. -/
def node (s : DState R) (h : Nat) : Res (Nat × DVal R) := do
  let n ← at! s.handles h
  let v ← at! s.heap n
  pure (n, v)

/-- Statements of a program using the public interface of `Dictionary`.
options_dictionary.hh 136-181; the functions are cited in `step`. -/
inductive Op (R : Type) where
  /-- `Dictionary d{};` -/
  | empty
  /-- `Dictionary d{key, value};` -/
  | single (key : String) (v : DScalar R)
  /-- `Dictionary d{dicts[h]};` -/
  | copy (h : Nat)
  /-- `dicts[h] = dicts[h2];` -/
  | rebind (h h2 : Nat)
  /-- `Dictionary d{dicts[h][key]};` -/
  | index (h : Nat) (key : String)
  /-- `dicts[h].add(key, value);` -/
  | add (h : Nat) (key : String) (v : DScalar R)
  /-- `dicts[h].add(key, dicts[h2]);` -/
  | addDict (h : Nat) (key : String) (h2 : Nat)
  /-- `dicts[h] = value;` -/
  | assign (h : Nat) (v : DScalar R)
  /-- `dicts[h] = dicts[h2].get_matrix();` -/
  | assignFrom (h h2 : Nat)
  deriving Repr

/-- One statement: outcome and state afterwards.
* `empty`, `single`: options_dictionary.cc 43-61 (`std::make_shared`);
* `copy`, `rebind`: the defaulted copy constructor and copy assignment, options_dictionary.hh 144, 154
  (the pointer is copied);
* `index`: options_dictionary.cc 63-65 and `get_value`, 255-261 (`std::map::at`);
* `add`: options_dictionary.cc 73-86 and 198-212;
* `addDict`: options_dictionary.cc 68-70 and 215-228;
* `assign`: options_dictionary.cc 105-121 and 140-162;
* `assignFrom`: options_dictionary.cc 156-162 with an argument that refers to the matrix held by a
  node.  The old member is destroyed first, so the behaviour is undefined if both nodes are the same. -/
def step (s : DState R) : Op R → Res Unit × DState R
  | .empty => (.ok (), ⟨s.heap ++ [.dict []], s.handles ++ [s.heap.length]⟩)
  | .single key v =>
      (.ok (), ⟨s.heap ++ [v.val, .dict [(key, s.heap.length)]], s.handles ++ [s.heap.length + 1]⟩)
  | .copy h =>
      match s.node h with
      | .ok (n, _) => (.ok (), ⟨s.heap, s.handles ++ [n]⟩)
      | _ => (.ub, s)
  | .rebind h h2 =>
      match s.node h, s.node h2 with
      | .ok _, .ok (n2, _) => (.ok (), ⟨s.heap, s.handles.set h n2⟩)
      | _, _ => (.ub, s)
  | .index h key =>
      match s.node h with
      | .ok (_, .dict m) =>
          match m.find key with
          | some c => (.ok (), ⟨s.heap, s.handles ++ [c]⟩)
          | none => (.throw .outOfRange, s)
      | .ok _ => (.throw .valueError, s)
      | _ => (.ub, s)
  | .add h key v =>
      match s.node h with
      | .ok (n, .dict m) =>
          match m.find key with
          | some _ => (.throw .keyError, s)
          | none =>
              (.ok (), ⟨(s.heap ++ [v.val]).set n (.dict (m.emplace key s.heap.length)), s.handles⟩)
      | .ok _ => (.throw .valueError, s)
      | _ => (.ub, s)
  | .addDict h key h2 =>
      match s.node h, s.node h2 with
      | .ok (n, .dict m), .ok (n2, _) =>
          match m.find key with
          | some _ => (.throw .keyError, s)
          | none => (.ok (), ⟨s.heap.set n (.dict (m.emplace key n2)), s.handles⟩)
      | .ok _, .ok _ => (.throw .valueError, s)
      | _, _ => (.ub, s)
  | .assign h v =>
      match s.node h with
      | .ok (n, _) => (.ok (), ⟨s.heap.set n v.val, s.handles⟩)
      | _ => (.ub, s)
  | .assignFrom h h2 =>
      match s.node h, s.node h2 with
      | .ok (n, _), .ok (n2, .mat m) =>
          if n = n2 then (.ub, s) else (.ok (), ⟨s.heap.set n (.mat m), s.handles⟩)
      | .ok _, .ok _ => (.throw .valueError, s)
      | _, _ => (.ub, s)

/-- The typed getters `get_int`, `get_real`, `get_matrix`, options_dictionary.cc 94-102 and 231-252. -/
def getInt (s : DState R) (h : Nat) : Res Int := do
  match (← s.node h).2 with
  | .int i => .ok i
  | _ => .throw .valueError

/-- `get_real`, options_dictionary.cc 94-102 and 231-252. -/
def getReal (s : DState R) (h : Nat) : Res R := do
  match (← s.node h).2 with
  | .real r => .ok r
  | _ => .throw .valueError

/-- `get_matrix`, options_dictionary.cc 94-102 and 231-252. -/
def getMatrix (s : DState R) (h : Nat) : Res (List (List R)) := do
  match (← s.node h).2 with
  | .mat m => .ok m
  | _ => .throw .valueError

/-- A program: exceptions are caught by the caller, undefined behaviour ends it.  Programs are not part of /repo.
For options_dictionary.hh 136-182. -/
def run (s : DState R) : List (Op R) → Option (DState R)
  | [] => some s
  | op :: ops =>
      match s.step op with
      | (.ub, _) => none
      | (_, s') => run s' ops

end DState

/-! ### Python interface -/

mutual
/-- Values of a python dict handed to the constructor: `/repo/language_bindings/python/
bind_py_options_dictionary.cc` 61-72 distinguishes integers, floats, dicts, arrays of floats and
anything else. -/
inductive PyVal (R : Type) where
  | int (i : Int)
  | real (r : R)
  | mat (m : List (List R))
  | dict (es : PyItems R)
  | other
/-- The items of a python dict in iteration order.  (Keys that are not strings raise an exception, lines
56-58; they are not modelled.) -/
inductive PyItems (R : Type) where
  | nil
  | cons (key : String) (v : PyVal R) (rest : PyItems R)
end

namespace Dict

/-- `ret_dict.add(key, ...)` on the node `n` of a heap, options_dictionary.cc 198-228. -/
def link (heap : List (DVal R)) (n : Nat) (key : String) (c : Nat) : Res (List (DVal R)) :=
  match heap[n]? with
  | some (.dict m) =>
      match m.find key with
      | some _ => .throw .keyError
      | none => .ok (heap.set n (.dict (m.emplace key c)))
  | some _ => .throw .valueError
  | none => .ub

mutual
/-- The value part of one round of the loop of `convert`, bind_py_options_dictionary.cc 61-72: a new node for the value.
`value.cast<Int>()` throws for values that do not fit into an `int`. -/
def convertVal (heap : List (DVal R)) : PyVal R → Res (Nat × List (DVal R))
  | .int i =>
      if -2147483648 ≤ i ∧ i ≤ 2147483647 then .ok (heap.length, heap ++ [.int i]) else .throw .runtimeError
  | .real r => .ok (heap.length, heap ++ [.real r])
  | .mat m => .ok (heap.length, heap ++ [.mat m])
  | .dict es => do
      let heap' ← convertItems heap.length (heap ++ [.dict []]) es
      pure (heap.length, heap')
  | .other => .throw .dictionaryError
/-- The loop of `convert`, bind_py_options_dictionary.cc 55-73, for the dictionary at node `n`.
(For scalars the code looks for the key before it makes the node; the outcome is the same.) -/
def convertItems (n : Nat) (heap : List (DVal R)) : PyItems R → Res (List (DVal R))
  | .nil => .ok heap
  | .cons key v rest => do
      let (c, heap1) ← convertVal heap v
      let heap2 ← link heap1 n key c
      convertItems n heap2 rest
end

/-- `convert`, bind_py_options_dictionary.cc 53-75. -/
def convert (heap : List (DVal R)) (es : PyItems R) : Res (Nat × List (DVal R)) := convertVal heap (.dict es)

/-- What `__getitem__` returns, bind_py_options_dictionary.cc 97-131. -/
def pyGet (heap : List (DVal R)) (n : Nat) (key : String) : Res (PyVal R) :=
  match heap[n]? with
  | some (.dict m) =>
      match m.find key with
      | none => .throw .outOfRange
      | some c =>
          match heap[c]? with
          | some (.int i) => .ok (.int i)
          | some (.real r) => .ok (.real r)
          | some (.mat a) => .ok (.mat a)
          | some (.dict _) => .throw .dictionaryError
          | none => .ub
  | some _ => .throw .valueError
  | none => .ub

/-- `__setitem__`, bind_py_options_dictionary.cc 150-166: outcome and heap.  `dict[key]` is evaluated
after the right-hand side (C++17); for a dict value the assignment is the defaulted copy assignment of the
temporary `dict[key]`, so only that temporary is changed. -/
def pySet (heap : List (DVal R)) (n : Nat) (key : String) (v : PyVal R) : Res Unit × List (DVal R) :=
  let child : Res Nat :=
    match heap[n]? with
    | some (.dict m) =>
        match m.find key with
        | none => .throw .outOfRange
        | some c => .ok c
    | some _ => .throw .valueError
    | none => .ub
  match v with
  | .int i =>
      if -2147483648 ≤ i ∧ i ≤ 2147483647 then
        match child with
        | .ok c => (.ok (), heap.set c (.int i))
        | .throw e => (.throw e, heap)
        | .ub => (.ub, heap)
      else (.throw .runtimeError, heap)
  | .real r =>
      match child with
      | .ok c => (.ok (), heap.set c (.real r))
      | .throw e => (.throw e, heap)
      | .ub => (.ub, heap)
  | .mat m =>
      match child with
      | .ok c => (.ok (), heap.set c (.mat m))
      | .throw e => (.throw e, heap)
      | .ub => (.ub, heap)
  | .dict es =>
      match convert heap es with
      | .ok (_, heap') =>
          match child with
          | .ok _ => (.ok (), heap')
          | .throw e => (.throw e, heap')
          | .ub => (.ub, heap')
      | .throw e => (.throw e, heap)
      | .ub => (.ub, heap)
  | .other => (.throw .dictionaryError, heap)

end Dict

end Verif
