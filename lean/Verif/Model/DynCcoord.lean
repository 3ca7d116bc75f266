import Verif.Model.Basic
/-
`DynCcoord<MaxDim, T>`, `/repo/src/libmugrid/grid_common.hh` 236-515, and its `+` and `-`, 527-575, for
integer components (unbounded integers).
-/
namespace Verif.DynCcoord

/-- A coordinate: the dimension and the array of `MaxDim` components, grid_common.hh 505-508. -/
structure Dyn where
  dim : Int
  arr : List Int
  deriving DecidableEq, Repr

/-- Constructors from an initialiser list or a vector, grid_common.hh 294-304 and 340-351. -/
def ofList (M : Nat) (l : List Int) : Res Dyn :=
  if l.length > M then .throw .runtimeError
  else .ok { dim := l.length, arr := l ++ List.replicate (M - l.length) 0 }

/-- Constructor from a dimension, grid_common.hh 318: no check. -/
def ofDim (M : Nat) (d : Int) : Dyn := { dim := d, arr := List.replicate M 0 }

/-- Assignment of a `std::array`, grid_common.hh 363-369: the components after the array keep their values.
A larger array is rejected at compile time. -/
def assign (c : Dyn) (l : List Int) : Dyn := { dim := l.length, arr := l ++ c.arr.drop l.length }

/-- The loops `for (i = 0; i < dim; ++i)` of the element-wise operations: read both operands without a
check.  For example grid_common.hh 537-539. -/
def forBoth (f : Int → Int → Res Int) (a b : List Int) : Nat → Nat → Res (List Int)
  | _, 0 => .ok []
  | i, n + 1 => do
      let x ← at! a i
      let y ← at! b i
      let z ← f x y
      let rest ← forBoth f a b (i + 1) n
      pure (z :: rest)

/-- Write the results into a fresh coordinate `result(dim)`; writing outside is undefined.
For example grid_common.hh 535-540. -/
def fresh (M : Nat) (d : Int) (l : List Int) : Res Dyn :=
  if l.length > M then .ub
  else .ok { dim := d, arr := l ++ List.replicate (M - l.length) 0 }

/-- `operator==`, grid_common.hh 385-391: the components of `other` are read whatever its dimension. -/
def eq (a b : Dyn) : Res Bool := do
  let r ← forBoth (fun x y => .ok (if x = y then 1 else 0)) a.arr b.arr 0 a.dim.toNat
  pure (decide (a.dim = b.dim) && r.all (fun x => x == 1))

/-- `operator+`, grid_common.hh 528-542. -/
def add (M : Nat) (a b : Dyn) : Res Dyn :=
  if a.dim ≠ b.dim then .throw .runtimeError
  else do
    let r ← forBoth (fun x y => .ok (x + y)) a.arr b.arr 0 a.dim.toNat
    fresh M a.dim r

/-- `operator-`, grid_common.hh 561-575. -/
def sub (M : Nat) (a b : Dyn) : Res Dyn :=
  if a.dim ≠ b.dim then .throw .runtimeError
  else do
    let r ← forBoth (fun x y => .ok (x - y)) a.arr b.arr 0 a.dim.toNat
    fresh M a.dim r

/-- `operator/`, grid_common.hh 396-409; integer division by zero is undefined. -/
def div (M : Nat) (a b : Dyn) : Res Dyn :=
  if a.dim ≠ b.dim then .throw .runtimeError
  else do
    let r ← forBoth (fun x y => if y = 0 then .ub else .ok (Int.tdiv x y)) a.arr b.arr 0 a.dim.toNat
    fresh M a.dim r

/-- `operator%=` and `operator%`, grid_common.hh 429-441: `zip` over both, so the number of reduced components
is the smaller dimension; the remainder has the sign of the dividend; by zero it is undefined. -/
def mod (a b : Dyn) : Res Dyn := do
  let r ← forBoth (fun x y => if y = 0 then .ub else .ok (Int.tmod x y)) a.arr b.arr 0
    (min a.dim.toNat b.dim.toNat)
  pure { a with arr := r ++ a.arr.drop r.length }

/-- `push_back`, grid_common.hh 420-426 (`dim` is converted to an unsigned number for the check). -/
def pushBack (M : Nat) (c : Dyn) (v : Int) : Res Dyn :=
  if c.dim < 0 ∨ (M : Int) ≤ c.dim then .throw .runtimeError
  else .ok { dim := c.dim + 1, arr := c.arr.set c.dim.toNat v }

/-- `operator[]`, grid_common.hh 412-417. -/
def get (c : Dyn) (i : Nat) : Res Int := at! c.arr i

/-- `back`, grid_common.hh 500-502: `dim - 1` is converted to an unsigned index. -/
def back (c : Dyn) : Res Int := if c.dim ≤ 0 then .ub else at! c.arr (c.dim - 1).toNat

/-- Conversion into a vector, grid_common.hh 475-481: iterates from `begin()` to `begin() + dim`. -/
def toVec (c : Dyn) : Res (List Int) :=
  if c.dim < 0 ∨ (c.arr.length : Int) < c.dim then .ub else .ok (c.arr.take c.dim.toNat)

/-- Conversion into `std::array<T, D>`, grid_common.hh 444-466: the dimension is not checked.  `D > MaxDim`
is rejected at compile time. -/
def toArray (c : Dyn) (D : Nat) : List Int := c.arr.take D

/-- `operator==` with a `std::array`, grid_common.hh 378-382. -/
def eqArray (c : Dyn) (l : List Int) : Bool := decide (c.dim = l.length) && decide (toArray c l.length = l)

/-- Python `len(c)`, `/repo/language_bindings/python/bind_py_common_mugrid.cc` 88: a negative result makes
python raise `ValueError`. -/
def pyLen (c : Dyn) : Res Int := if c.dim < 0 then .throw .valueError else .ok c.dim

/-- Python `c[i]`, bind_py_common_mugrid.cc 89-99: `std::out_of_range` becomes `IndexError`, which also ends a
python `for` loop over the coordinate. -/
def pyGetItem (c : Dyn) (i : Int) : Res Int :=
  if i < 0 ∨ c.dim ≤ i then .throw .outOfRange else at! c.arr i.toNat

/-- Python `list(c)`: without `__iter__` python calls `__getitem__` (bind_py_common_mugrid.cc 89-99) with
0, 1, ... until `IndexError`; `fuel` bounds the number of calls and is not reached if it exceeds the dimension. -/
def pyList (c : Dyn) : Nat → Int → Res (List Int)
  | 0, _ => .ub
  | fuel + 1, i =>
      match pyGetItem c i with
      | .ok v => do
          let rest ← pyList c fuel (i + 1)
          pure (v :: rest)
      | .throw _ => .ok []
      | .ub => .ub

end Verif.DynCcoord
