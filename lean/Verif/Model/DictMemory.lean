import Verif.Model.Dictionary
/-
The memory of dictionaries, `/repo/src/libmugrid/options_dictionary.hh` and `.cc`: a `Dictionary` and an entry of a dictionary
are `std::shared_ptr<RuntimeValue>`.  `Dictionary.lean` keeps all values for ever; here the pointers are counted, a value is
destroyed with its last pointer, and a destroyed dictionary gives up the pointers it holds.
-/
namespace Verif

/-- A `RuntimeValue` made by `std::make_shared`, options_dictionary.cc 44-61 and 210-211, with the number of pointers to it;
no value: destroyed. -/
structure MNode (R : Type) where
  val : Option (DVal R)
  count : Nat
  deriving DecidableEq, Repr

/-- A `Dictionary` object of the program, options_dictionary.hh 136-182: at the end of its life, with an empty pointer (after it
has been moved from, options_dictionary.hh 143), or pointing to a value. -/
inductive MHandle where
  | gone
  | null
  | ref (n : Nat)
  deriving DecidableEq, Repr

/-- The values and the `Dictionary` objects, options_dictionary.hh 69-182. -/
structure MState (R : Type) where
  heap : List (MNode R)
  handles : List MHandle
  deriving DecidableEq, Repr

variable {R : Type}

/-- The pointers in a value: those of its `Map_t`, options_dictionary.hh 77 and 123. -/
def DVal.kids : DVal R → List Nat
  | .dict m => m.map (·.2)
  | _ => []

/-- The pointers in the memory of a value; a destroyed one has none.  options_dictionary.cc 269-282. -/
def MNode.kids (nd : MNode R) : List Nat :=
  match nd.val with
  | some v => v.kids
  | none => []

/-- The pointer held by a `Dictionary` object, options_dictionary.hh 181. -/
def MHandle.target : MHandle → List Nat
  | .ref n => [n]
  | _ => []

namespace MState

/-- Destruction of the pointers `ps`, one after the other: the last pointer to a value destroys it (`~RuntimeValue`,
options_dictionary.cc 264-282), and with it the pointers it holds.  Destroying a pointer to a value that is already destroyed is
undefined.  Every round takes one from the number of pointers, so that their sum is enough `fuel`.  (The code recurses; the
depth of its stack is not modelled.) -/
def release : Nat → List (MNode R) → List Nat → Res (List (MNode R))
  | _, heap, [] => .ok heap
  | 0, _, _ :: _ => .ub
  | fuel + 1, heap, n :: ps =>
      match heap[n]? with
      | some ⟨some v, 1⟩ => release fuel (heap.set n ⟨none, 0⟩) (v.kids ++ ps)
      | some ⟨some v, c + 2⟩ => release fuel (heap.set n ⟨some v, c + 1⟩) ps
      | _ => .ub

/-- The number of pointers, for `release`; options_dictionary.cc 264-282. -/
def total (heap : List (MNode R)) : Nat := (heap.map (·.count)).sum

/-- A new pointer to a value (copy of a `std::shared_ptr`), options_dictionary.cc 64, 227 and options_dictionary.hh 144. -/
def acquire (heap : List (MNode R)) (n : Nat) : Res (List (MNode R)) :=
  match heap[n]? with
  | some ⟨some v, c⟩ => .ok (heap.set n ⟨some v, c + 1⟩)
  | _ => .ub

/-- `*this->ptr` for the `Dictionary` object `h`, options_dictionary.cc 64-121: undefined for an empty pointer and for a destroyed
value. -/
def node (s : MState R) (h : Nat) : Res (Nat × DVal R × Nat) :=
  match s.handles[h]? with
  | some (.ref n) =>
      match s.heap[n]? with
      | some ⟨some v, c⟩ => .ok (n, v, c)
      | _ => .ub
  | _ => .ub

/-- Statements: those of `DState.Op`, `Dictionary d{std::move(dicts[h])};` and the end of the life of `dicts[h]`.
options_dictionary.hh 139-178. -/
inductive Op (R : Type) where
  | op (o : DState.Op R)
  | move (h : Nat)
  | drop (h : Nat)
  deriving Repr

/-- The result of a statement that ends by destroying the pointers `ps`; options_dictionary.cc 140-162, 264-282. -/
def finish (s : MState R) (heap : List (MNode R)) (ps : List Nat) (handles : List MHandle) : Res Unit × MState R :=
  match release (total heap) heap ps with
  | .ok heap' => (.ok (), ⟨heap', handles⟩)
  | _ => (.ub, s)

/-- A new pointer to `n`, then the rest of the statement; options_dictionary.cc 64, 227 and options_dictionary.hh 144, 154. -/
def withNew (s : MState R) (heap : List (MNode R)) (n : Nat) (k : List (MNode R) → Res Unit × MState R) : Res Unit × MState R :=
  match acquire heap n with
  | .ok heap' => k heap'
  | _ => (.ub, s)

/-- One statement, as `DState.step`:
* `empty`, `single`: options_dictionary.cc 43-61, one pointer remains to each new value;
* `copy`, `rebind`: options_dictionary.hh 144, 154; an assignment takes the new pointer before it gives up the old one;
* `move`: options_dictionary.hh 143;
* `index`: options_dictionary.cc 63-65 and 255-261;
* `add`: options_dictionary.cc 73-86 and 198-212;
* `addDict`: options_dictionary.cc 68-70 and 215-228 (simplified: adding a dictionary that has been moved from, which stores an
  empty pointer, counts as undefined here);
* `assign`, `assignFrom`: options_dictionary.cc 105-121 and 140-162, the map that was there is destroyed;
* `drop`: the defaulted destructor, options_dictionary.hh 151. -/
def step (s : MState R) : Op R → Res Unit × MState R
  | .op .empty => (.ok (), ⟨s.heap ++ [⟨some (.dict []), 1⟩], s.handles ++ [.ref s.heap.length]⟩)
  | .op (.single key v) =>
      (.ok (), ⟨s.heap ++ [⟨some v.val, 1⟩, ⟨some (.dict [(key, s.heap.length)]), 1⟩], s.handles ++ [.ref (s.heap.length + 1)]⟩)
  | .op (.copy h) =>
      match s.handles[h]? with
      | some (.ref n) => s.withNew s.heap n fun heap => (.ok (), ⟨heap, s.handles ++ [.ref n]⟩)
      | some .null => (.ok (), ⟨s.heap, s.handles ++ [.null]⟩)
      | _ => (.ub, s)
  | .op (.rebind h h2) =>
      match s.handles[h]?, s.handles[h2]? with
      | some .gone, _ => (.ub, s)
      | some old, some (.ref n2) =>
          s.withNew s.heap n2 fun heap => s.finish heap old.target (s.handles.set h (.ref n2))
      | some old, some .null => s.finish s.heap old.target (s.handles.set h .null)
      | _, _ => (.ub, s)
  | .op (.index h key) =>
      match s.node h with
      | .ok (_, .dict m, _) =>
          match m.find key with
          | some c => s.withNew s.heap c fun heap => (.ok (), ⟨heap, s.handles ++ [.ref c]⟩)
          | none => (.throw .outOfRange, s)
      | .ok _ => (.throw .valueError, s)
      | _ => (.ub, s)
  | .op (.add h key v) =>
      match s.node h with
      | .ok (n, .dict m, c) =>
          match m.find key with
          | some _ => (.throw .keyError, s)
          | none =>
              (.ok (), ⟨(s.heap ++ [MNode.mk (some v.val) 1]).set n ⟨some (.dict (m.emplace key s.heap.length)), c⟩, s.handles⟩)
      | .ok _ => (.throw .valueError, s)
      | _ => (.ub, s)
  | .op (.addDict h key h2) =>
      match s.node h, s.node h2 with
      | .ok (n, .dict m, c), .ok (n2, _, _) =>
          match m.find key with
          | some _ => (.throw .keyError, s)
          | none =>
              s.withNew (s.heap.set n ⟨some (.dict (m.emplace key n2)), c⟩) n2 fun heap => (.ok (), ⟨heap, s.handles⟩)
      | .ok _, .ok _ => (.throw .valueError, s)
      | _, _ => (.ub, s)
  | .op (.assign h v) =>
      match s.node h with
      | .ok (n, w, c) => s.finish (s.heap.set n ⟨some v.val, c⟩) w.kids s.handles
      | _ => (.ub, s)
  | .op (.assignFrom h h2) =>
      match s.node h, s.node h2 with
      | .ok (n, w, c), .ok (n2, .mat m, _) =>
          if n = n2 then (.ub, s) else s.finish (s.heap.set n ⟨some (.mat m), c⟩) w.kids s.handles
      | .ok _, .ok _ => (.throw .valueError, s)
      | _, _ => (.ub, s)
  | .move h =>
      match s.handles[h]? with
      | some .gone => (.ub, s)
      | some p => (.ok (), ⟨s.heap, s.handles.set h .null ++ [p]⟩)
      | none => (.ub, s)
  | .drop h =>
      match s.handles[h]? with
      | some .gone => (.ub, s)
      | some old => s.finish s.heap old.target (s.handles.set h .gone)
      | none => (.ub, s)

/-- A program, as `DState.run`.  Programs are not part of /repo; for options_dictionary.hh 136-182. -/
def run (s : MState R) : List (Op R) → Option (MState R)
  | [] => some s
  | op :: ops =>
      match s.step op with
      | (.ub, _) => none
      | (_, s') => run s' ops

end MState
end Verif
