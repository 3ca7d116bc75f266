import Verif.Model.Layout
/-
Exchange of fields with numpy: `/repo/src/libmugrid/numpy_tools.hh`, and `WrappedField` of field_typed.cc.
-/
namespace Verif.Numpy
open Verif Verif.Ccoord Verif.Layout Verif.RawMemory

/-- A numpy array: shape, strides in bytes, and size of an element.  The element with the index tuple `c` is
at the byte `dot strides c` from the data pointer.  `py::array_t` as used by numpy_tools.hh. -/
structure NpArray where
  shape : List Int
  strides : List Int
  item : Int
  deriving DecidableEq, Repr

/-- `array.size()`.  Used at numpy_tools.hh 256-402. -/
def NpArray.size (a : NpArray) : Int := getSize a.shape

/-- Value and position of the first smallest element, the first result of `std::minmax_element`;
dereferencing it is undefined for an empty range.  numpy_tools.hh 113-116. -/
def firstMin : List Int → Res (Int × Nat)
  | [] => .ub
  | [x] => .ok (x, 0)
  | x :: y :: l => do
      let m ← firstMin (y :: l)
      if m.1 < x then pure (m.1, m.2 + 1) else pure (x, 0)

/-- Value and position of the last largest element, the second result of `std::minmax_element`.
numpy_tools.hh 113-116. -/
def lastMax : List Int → Res (Int × Nat)
  | [] => .ub
  | [x] => .ok (x, 0)
  | x :: y :: l => do
      let m ← lastMax (y :: l)
      if m.1 < x then pure (x, 0) else pure (m.1, m.2 + 1)

/-- Division by the smallest stride if that is positive, numpy_tools.hh 136-142 and 171-177. -/
def normalise (sm : Int) (s : List Int) : List Int := if 0 < sm then s.map (Int.tdiv · sm) else s

/-- The order of pixels against components, numpy_tools.hh 107-134, from the smallest and the largest strides. -/
def pixelsOrder (nb comps : List Int) (cmin cmax pmin pmax : Int × Nat) : Res StorageOrder :=
  if pmax.1 < cmin.1 then do
    let n ← at! nb pmax.2
    pure (if cmin.1 = n * pmax.1 then .rowMajor else .unknown)
  else if cmax.1 ≤ pmin.1 then do
    let n ← at! comps cmax.2
    pure (if pmin.1 = n * cmax.1 then .colMajor else .unknown)
  else .ok .unknown

/-- The first guess of the storage order, numpy_tools.hh 105-150: order, and component strides divided by the
smallest. -/
def guessOrder (srt : SortFn) (nb comps cs ps : List Int) : Res (StorageOrder × List Int) :=
  if cs = [] then .ok (.colMajor, cs)
  else do
    let cmin ← firstMin cs
    let cmax ← lastMax cs
    let pmin ← firstMin ps
    let pmax ← lastMax ps
    let order ← pixelsOrder nb comps cmin cmax pmin pmax
    let contiguous ← isBufferContiguous srt comps (normalise cmin.1 cs)
    pure (if contiguous then order else .unknown, normalise cmin.1 cs)

/-- All neighbours `s[i], s[i + 1]` are in relation `le`.  numpy_tools.hh 152-170. -/
def chain (le : Int → Int → Bool) : List Int → Bool
  | x :: y :: s => le x y && chain le (y :: s)
  | _ => true

/-- The check of the order of the components, numpy_tools.hh 152-170.  The loops start with `i = 1`: the first
two components are not compared. -/
def checkComponents (order : StorageOrder) (cs : List Int) : StorageOrder :=
  if cs.length > 1 then
    if order = .colMajor then if chain (fun x y => decide (x ≤ y)) cs.tail then order else .unknown
    else if chain (fun x y => decide (y ≤ x)) cs.tail then order else .unknown
  else order

/-- `detect_storage_order`, numpy_tools.hh 71-204: storage order, pixel strides, and the strides of the field
(none if the order is one of the library). -/
def detectStorageOrder (srt : SortFn) (nb comps : List Int) (nbSub : Int) (a : NpArray) :
    Res (StorageOrder × List Int × List Int) :=
  if nb.length + comps.length ≠ a.shape.length then .throw .numpyError
  else do
    let cs := a.strides.take comps.length
    let ps := a.strides.drop (a.shape.length - nb.length)
    let strides := cs.map (Int.tdiv · a.item) ++ (if comps ≠ [] ∧ nbSub = 1 then [0] else []) ++
      ps.map (Int.tdiv · a.item)
    let g ← guessOrder srt nb comps cs ps
    let order := checkComponents g.1 g.2
    let sm ← firstMin ps
    let ps' := normalise sm.1 ps
    if 1 < nbSub ∧ order = .unknown then .throw .numpyError
    else pure (order, ps', if order = .colMajor ∨ order = .rowMajor then [] else strides)

/-- A `WrappedField`: the layout from its collection, and its own strides, field_typed.hh. -/
structure Wrapped where
  layout : FieldLayout
  custom : List Int
  deriving DecidableEq, Repr

/-- `WrappedField::get_strides`, field_typed.cc 717-730: own strides ignore the element size. -/
def Wrapped.strides (w : Wrapped) (it : IterUnit) (e : Int) : Res (List Int) :=
  if w.custom.length > 0 then
    match it with
    | .subPt => .ok w.custom
    | .pixel => .throw .fieldError
  else w.layout.strides it e

/-- The constructor of `WrappedField`, field_typed.cc 595-639.  The number of components must not be zero: the
size is divided by it. -/
def wrapField (l : FieldLayout) (size : Int) (custom : List Int) : Res Wrapped :=
  let w : Wrapped := ⟨l, custom⟩
  if l.nbComp = 0 then .ub
  else do
    let entries := Int.tdiv size l.nbComp
    let s ← w.strides .subPt 1
    if (l.shape .subPt).length ≠ s.length then .throw .fieldError
    else if size ≠ l.nbComp * entries then .throw .fieldError
    else if l.nbSub * getSize l.pixShape ≠ entries then .throw .fieldError
    else .ok w

/-- The construction of the collection and of the field, numpy_tools.hh 316-329 and 388-401, with the
constructor of the collection, field_collection_global.cc 60-71 and 86-132.  `domain` are the grid points
of the whole domain, `loc` is the location of the subdomain. -/
def makeProxy (srt : SortFn) (domain nb loc comps : List Int) (nbSub : Int) (a : NpArray)
    (det : StorageOrder × List Int × List Int) : Res Wrapped :=
  if getSize domain ≤ 0 then .throw .fieldCollectionError
  else if getSize nb < 0 then .throw .fieldCollectionError
  else do
    let _ ← DynamicPixels.mkStrided srt nb loc det.2.1
    let nbBuf ← getBufferSize nb det.2.1
    wrapField ⟨det.1, comps, nbSub, nb, det.2.1, nbBuf⟩ a.size det.2.2

/-- The first constructor of `NumpyProxy`, numpy_tools.hh 256-330: any shape of the components. -/
def proxyPixel (srt : SortFn) (domain nb loc : List Int) (nbDof : Int) (a : NpArray) : Res Wrapped :=
  if getSize nb * nbDof ≠ a.size then .throw .numpyError
  else if a.shape.length < nb.length then .throw .numpyError
  else if a.shape.drop (a.shape.length - nb.length) ≠ nb then .throw .numpyError
  else
    let comps := a.shape.take (a.shape.length - nb.length)
    if getSize comps ≠ nbDof then .throw .numpyError
    else do
      let det ← detectStorageOrder srt nb comps 1 a
      makeProxy srt domain nb loc comps 1 a det

/-- The second constructor of `NumpyProxy`, numpy_tools.hh 343-402: given shape of the components, with or
(for a single sub-point) without an axis for the sub-points. -/
def proxySubPt (srt : SortFn) (domain nb loc : List Int) (nbSub : Int) (comps : List Int) (a : NpArray) :
    Res Wrapped :=
  if a.shape = comps ++ [nbSub] ++ nb then do
    let det ← detectStorageOrder srt nb (comps ++ [nbSub]) nbSub a
    makeProxy srt domain nb loc comps nbSub a det
  else if nbSub = 1 ∧ a.shape = comps ++ nb then do
    let det ← detectStorageOrder srt nb comps nbSub a
    makeProxy srt domain nb loc comps nbSub a det
  else .throw .numpyError

/-- `numpy_wrap`, numpy_tools.hh 429-437: the array shows the memory of the field. -/
def numpyWrap (w : Wrapped) (it : IterUnit) (item : Int) : Res NpArray := do
  let s ← w.strides it item
  pure ⟨w.layout.shape it, s, item⟩

/-- Strides of a new array in row-major order, in elements: `py::array_t<T>(shape)`.  numpy_tools.hh 440-457. -/
def cStrides (shape : List Int) : List Int := (FieldLayout.accStrides 1 shape.reverse).reverse

/-- `numpy_copy`, numpy_tools.hh 440-457: a new array, in elements, with memory for every element.  The
conversion to a column-major array on return keeps the elements (trusted). -/
def numpyCopy {α : Type} (srt : SortFn) (w : Wrapped) (it : IterUnit) (src : Mem α) (fresh : Mem α) :
    Res (Mem α) := do
  let s ← w.strides it 1
  stridedCopy srt (w.layout.shape it) s (cStrides (w.layout.shape it)) src fresh

end Verif.Numpy
