import Verif.Model.Basic
/-
Model of `/repo/src/libmugrid/ccoord_operations.{hh,cc}`: grids, strides, linear indices,
coordinates, pixel iteration.

Coordinates (`Ccoord_t<Dim>`, `DynCcoord_t`, `Shape_t`) are lists of integers; the length of the
list is the dimension.  Integers are unbounded unless a definition says otherwise; C++ `/` and `%`
truncate towards zero, hence `Int.tdiv` and `Int.tmod`.
-/
namespace Verif.Ccoord

/-- `std::sort` on a sequence of axis numbers with a comparator.  The result for equivalent
elements is not specified by C++, so the sort is a parameter of everything that uses it; see
`SortSpec` for what it guarantees.  Used at ccoord_operations.hh 378-384 and 393-399. -/
abbrev SortFn := (Nat → Nat → Bool) → List Nat → List Nat

/-- What C++ requires of the comparator of `std::sort`.  The comparators: ccoord_operations.hh 378-399. -/
structure StrictWeak (lt : Nat → Nat → Bool) : Prop where
  irrefl : ∀ a, lt a a = false
  trans : ∀ a b c, lt a b = true → lt b c = true → lt a c = true
  incomp : ∀ a b c, (lt a b = false ∧ lt b a = false) → (lt b c = false ∧ lt c b = false) →
    (lt a c = false ∧ lt c a = false)

/-- What C++ guarantees of `std::sort`: for a strict weak order the result is a sorted
permutation of the input.  The calls: ccoord_operations.hh 378-399. -/
def SortSpec (srt : SortFn) : Prop :=
  ∀ lt l, StrictWeak lt → (srt lt l).Perm l ∧ (srt lt l).Pairwise (fun a b => lt b a = false)

/-- Insertion of one element into a sorted list, after its equivalents to the left.
Part of an instance of `std::sort`, ccoord_operations.hh 378-399. -/
def insertBy (lt : Nat → Nat → Bool) (a : Nat) : List Nat → List Nat
  | [] => [a]
  | b :: l => if lt b a then b :: insertBy lt a l else a :: b :: l

/-- A stable sort.  `std::sort` of libstdc++ is a plain insertion sort, hence stable, for at most
16 elements, and axis lists are shorter than that; this is the sort used in examples.
An instance for the calls ccoord_operations.hh 378-399. -/
def stableSort : SortFn := fun lt l => l.foldr (insertBy lt) []

/-- `CcoordOps::modulo`, ccoord_operations.hh 118-122: `(b + (a % b)) % b`; `b = 0` is undefined. -/
def modulo (a b : Int) : Res Int :=
  if b = 0 then .ub else .ok (Int.tmod (b + Int.tmod a b) b)

/-- Column-major strides, ccoord_operations.hh 75-86 and 101-107: stride `i` is the product of the
extents before `i`; `acc` is that product. -/
def colMajorStridesAux (acc : Int) : List Int → List Int
  | [] => []
  | n :: nb => acc :: colMajorStridesAux (acc * n) nb

/-- `get_col_major_strides` for statically sized grids, ccoord_operations.hh 253-260. -/
def colMajorStrides (nb : List Int) : List Int := colMajorStridesAux 1 nb

/-- Product of a list of extents: `get_size`, ccoord_operations.hh 576-597, and `compute_volume`,
485-505.  (`size_t`/`Index_t` arithmetic taken as unbounded.) -/
def getSize : List Int → Int
  | [] => 1
  | n :: nb => n * getSize nb

/-- `row_major_stride` and `get_row_major_strides` for statically sized grids,
ccoord_operations.hh 88-99, 109-115, 294-301: stride `i` is the product of the extents after `i`. -/
def rowMajorStrides : List Int → List Int
  | [] => []
  | _ :: nb => getSize nb :: rowMajorStrides nb

/-- `get_col_major_strides(DynCcoord)`, ccoord_operations.hh 262-292: only dimensions 1 to 3. -/
def dynColMajorStrides (nb : List Int) : Res (List Int) :=
  if nb.length = 1 ∨ nb.length = 2 ∨ nb.length = 3 then .ok (colMajorStrides nb)
  else .throw .runtimeError

/-- `get_row_major_strides(DynCcoord)`, ccoord_operations.hh 303-333: only dimensions 1 to 3. -/
def dynRowMajorStrides (nb : List Int) : Res (List Int) :=
  if nb.length = 1 ∨ nb.length = 2 ∨ nb.length = 3 then .ok (rowMajorStrides nb)
  else .throw .runtimeError

/-- The loop of `get_ccoord`, ccoord_operations.hh 343-348, at the remaining axes.  Division or
remainder by zero is undefined.  `factor` is not updated on the last axis. -/
def getCcoordAux (index : Int) : Int → List Int → List Int → Res (List Int)
  | factor, n :: nb, l :: loc => do
      if factor = 0 ∨ n = 0 then .ub
      else
        let factor' := if nb.isEmpty then factor else factor * n
        let rest ← getCcoordAux index factor' nb loc
        pure ((Int.tmod (Int.tdiv index factor) n + l) :: rest)
  | _, [], [] => .ok []
  | _, _, _ => .ub

/-- `CcoordOps::get_ccoord`, ccoord_operations.hh 335-350.  The C++ argument types force equal
dimensions; lists of different lengths, which cannot occur, are `ub` here. -/
def getCcoord (nb loc : List Int) (index : Int) : Res (List Int) := getCcoordAux index 1 nb loc

/-- The loop of `get_index`, ccoord_operations.hh 467-475 and ccoord_operations.cc 60-68, with
unbounded integers.  `factor` is not updated on the last axis. -/
def getIndexAux : Int → Int → List Int → List Int → List Int → Int
  | retval, factor, n :: nb, l :: loc, c :: cc =>
      getIndexAux (retval + (c - l) * factor) (if nb.isEmpty then factor else factor * n) nb loc cc
  | retval, _, _, _, _ => retval

/-- `CcoordOps::get_index` (column major), ccoord_operations.hh 461-476 and
ccoord_operations.cc 45-69 including the dimension checks of the latter; unbounded integers,
see `getIndex32` for the actual return type. -/
def getIndex (nb loc cc : List Int) : Res Int :=
  if loc.length ≠ nb.length then .throw .runtimeError
  else if cc.length ≠ nb.length then .throw .runtimeError
  else .ok (getIndexAux 0 1 nb loc cc)

/-- Conversion to `Dim_t = int` (grid_common.hh 69): reduction modulo 2^32 into [-2^31, 2^31). -/
def toInt32 (x : Int) : Int := Int.bmod x (2 ^ 32)

/-- The loop of `get_index` with its variables of type `Dim_t = int`: `retval += ...` and
`factor *= ...` are evaluated in `Index_t` (64 bit, taken as unbounded) and converted back to `int`,
ccoord_operations.cc 60-68, ccoord_operations.hh 467-475. -/
def getIndexAux32 : Int → Int → List Int → List Int → List Int → Int
  | retval, factor, n :: nb, l :: loc, c :: cc =>
      getIndexAux32 (toInt32 (retval + (c - l) * factor))
        (if nb.isEmpty then factor else toInt32 (factor * n)) nb loc cc
  | retval, _, _, _, _ => retval

/-- `CcoordOps::get_index` with its actual integer types, ccoord_operations.cc 45-69. -/
def getIndex32 (nb loc cc : List Int) : Res Int :=
  if loc.length ≠ nb.length then .throw .runtimeError
  else if cc.length ≠ nb.length then .throw .runtimeError
  else .ok (getIndexAux32 0 1 nb loc cc)

/-- The comparator of `compute_axes_order`, ccoord_operations.hh 379-383.  (Only called with axis
numbers inside both containers; outside the value is immaterial.) -/
def axesLt (shape strides : List Int) (a b : Nat) : Bool :=
  let s (i : Nat) := strides[i]?.getD 0
  let n (i : Nat) := shape[i]?.getD 0
  (s a == 1 && s b == 1 && decide (n a < n b)) || decide (s a < s b)

/-- `compute_axes_order`, ccoord_operations.hh 373-400: sort 0..dim-1 by stride, fastest first.
Strides shorter than the shape are read out of bounds (for `Shape_t`). -/
def computeAxesOrder (srt : SortFn) (shape strides : List Int) : Res (List Nat) :=
  if strides.length < shape.length then .ub
  else .ok (srt (axesLt shape strides) (List.range shape.length))

/-- The loop of `get_ccoord_from_axes_order` over the axes from slowest to fastest,
ccoord_operations.hh 411-415 and 441-445; `retval` is the array being filled. -/
def ccoordLoop (strides : List Int) : List Nat → Int → List Int → Res (List Int)
  | [], _, retval => .ok retval
  | a :: as, index, retval => do
      let s ← at! strides a
      if s = 0 then .ub
      else if retval.length ≤ a then .ub
      else
        let cur := Int.tdiv index s
        ccoordLoop strides as (index - cur * s) (retval.set a cur)

/-- `get_ccoord_from_axes_order`, ccoord_operations.hh 402-450.  `axes` is the axes order, fastest
first; the loop runs from the last to the first. -/
def getCcoordFromAxesOrder (nb loc strides : List Int) (axes : List Nat) (index : Int) :
    Res (List Int) := do
  let r ← ccoordLoop strides axes.reverse index (List.replicate nb.length 0)
  pure (List.zipWith (· + ·) r loc)

/-- `get_ccoord_from_strides`, ccoord_operations.hh 422-431 and 452-459. -/
def getCcoordFromStrides (srt : SortFn) (nb loc strides : List Int) (index : Int) :
    Res (List Int) := do
  let axes ← computeAxesOrder srt nb strides
  getCcoordFromAxesOrder nb loc strides axes index

/-- The accumulation loop of `get_index_from_strides`, ccoord_operations.hh 566-573. -/
def indexSum : List Int → List Int → List Int → Int
  | s :: ss, l :: ls, c :: cs => s * (c - l) + indexSum ss ls cs
  | _, _, _ => 0

/-- `get_index_from_strides`, ccoord_operations.hh 549-574. -/
def getIndexFromStrides (strides loc cc : List Int) : Res Int :=
  if loc.length ≠ strides.length then .throw .runtimeError
  else if cc.length ≠ strides.length then .throw .runtimeError
  else .ok (indexSum strides loc cc)

/-- The loop of `is_buffer_contiguous`, ccoord_operations.hh 525-531, along the axes order, with the
running product `stride` (an `int` in the code, taken as unbounded here; `Narrow.contiguousLoop32` has the
`int`). -/
def contiguousLoop (nb strides : List Int) : List Nat → Int → Bool → Res Bool
  | [], _, acc => .ok acc
  | a :: as, stride, acc => do
      let s ← at! strides a
      let n ← at! nb a
      contiguousLoop nb strides as (stride * n) (acc && s == stride)

/-- `is_buffer_contiguous`, ccoord_operations.hh 510-532. -/
def isBufferContiguous (srt : SortFn) (nb strides : List Int) : Res Bool :=
  if nb.length = 0 then .ok true
  else if getSize nb = 0 then .ok true
  else if strides.length ≠ nb.length then .throw .runtimeError
  else do
    let axes ← computeAxesOrder srt nb strides
    contiguousLoop nb strides axes 1 true

/-- The loop of `get_buffer_size`, ccoord_operations.cc 92-99 and 111-118.  (A negative product
wraps to a huge `size_t` in C++; that case is not modelled.) -/
def bufferSizeAux : Int → List Int → List Int → Int
  | acc, n :: nb, s :: ss => bufferSizeAux (max acc (n * s)) nb ss
  | acc, _, _ => acc

/-- `get_buffer_size`, ccoord_operations.cc 83-119. -/
def getBufferSize (nb strides : List Int) : Res Int :=
  if strides.length ≠ nb.length then .throw .runtimeError
  else .ok (bufferSizeAux 0 nb strides)

/-- `CcoordOps::DynamicPixels`, ccoord_operations.hh 633-755 (data members 749-754; the dimension
is the length of the lists). -/
structure DynamicPixels where
  nb : List Int
  loc : List Int
  strides : List Int
  axes : List Nat
  contiguous : Bool
  deriving DecidableEq, Repr

namespace DynamicPixels

/-- The default constructor, ccoord_operations.cc 122-124: no dimension, not contiguous. -/
def unset : DynamicPixels := { nb := [], loc := [], strides := [], axes := [], contiguous := false }

/-- Subdomain locations used by the constructors, ccoord_operations.cc 131-134 and 153-156: zeros if
none are given. -/
def fillLoc (nb loc : List Int) : List Int :=
  if loc.length = 0 then List.replicate nb.length 0 else loc

/-- Constructor with default (column-major) strides, ccoord_operations.cc 127-145. -/
def mkDefault (srt : SortFn) (nb loc : List Int) : Res DynamicPixels := do
  let loc' := fillLoc nb loc
  let strides ← dynColMajorStrides nb
  let axes ← computeAxesOrder srt nb strides
  if nb.length ≠ loc'.length then .throw .runtimeError
  else pure { nb := nb, loc := loc', strides := strides, axes := axes, contiguous := true }

/-- Constructor with custom strides, ccoord_operations.cc 148-174.  Strides of another dimension
always end in a `RuntimeError` (thrown by `is_buffer_contiguous` or by the explicit check; the
sort before that reads the fixed-size storage of `DynCcoord`, which is harmless), so this check
comes first here. -/
def mkStrided (srt : SortFn) (nb loc strides : List Int) : Res DynamicPixels := do
  let loc' := fillLoc nb loc
  if strides.length ≠ nb.length then .throw .runtimeError
  else do
    let axes ← computeAxesOrder srt nb strides
    let contiguous ← isBufferContiguous srt nb strides
    if nb.length ≠ loc'.length then .throw .runtimeError
    else pure { nb := nb, loc := loc', strides := strides, axes := axes, contiguous := contiguous }

/-- Pixels of a global field collection initialised with a pixel storage order:
field_collection_global.cc 134-150 (the strides) and 118-119 (the construction).  Anything but
`ColMajor` gives row-major strides; `colMajor` is the result of that comparison. -/
def mkOrdered (srt : SortFn) (colMajor : Bool) (nb loc : List Int) : Res DynamicPixels := do
  let strides ← if colMajor then dynColMajorStrides nb else dynRowMajorStrides nb
  mkStrided srt nb loc strides

/-- `DynamicPixels::get_index`, ccoord_operations.hh 677-681. -/
def getIndex (p : DynamicPixels) (cc : List Int) : Res Int :=
  getIndexFromStrides p.strides p.loc cc

/-- `DynamicPixels::get_ccoord`, ccoord_operations.hh 694-699. -/
def getCcoord (p : DynamicPixels) (index : Int) : Res (List Int) :=
  getCcoordFromAxesOrder p.nb p.loc p.strides p.axes index

/-- `DynamicPixels::size`, ccoord_operations.cc 229-231. -/
def size (p : DynamicPixels) : Int := getSize p.nb

/-- Run a computation for every element of a list in order (a range-based `for` loop whose body
may throw).  Loops of this kind: ccoord_operations.cc and field_collection.cc, cited where used. -/
def forAll {α β : Type} (f : α → Res β) : List α → Res (List β)
  | [] => .ok []
  | a :: as => do
      let b ← f a
      let bs ← forAll f as
      pure (b :: bs)

/-- The sequence visited by a range-based `for` over a `DynamicPixels`: the iterator constructor
throws if the buffer is not contiguous, ccoord_operations.hh 771-781; otherwise the index runs from 0
to `size()` (ccoord_operations.cc 200-207, ccoord_operations.hh 801-814). -/
def pixels (p : DynamicPixels) : Res (List (List Int)) :=
  if p.contiguous then forAll (fun i : Nat => p.getCcoord (i : Int)) (List.range p.size.toNat)
  else .throw .runtimeError

/-- The sequence visited by a range-based `for` over `DynamicPixels::enumerate()`,
ccoord_operations.hh 880-884 and ccoord_operations.cc 210-236. -/
def enumerate (p : DynamicPixels) : Res (List (Int × List Int)) :=
  if p.contiguous then
    forAll (fun i : Nat => do
      let c ← p.getCcoord (i : Int)
      let k ← p.getIndex c
      pure (k, c)) (List.range p.size.toNat)
  else .throw .runtimeError

end DynamicPixels

end Verif.Ccoord
