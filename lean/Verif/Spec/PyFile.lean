import Verif.Spec.PyArrays
import Verif.Spec.FileSession
import Verif.Spec.FileRegister
import Verif.Model.PyFile
/-
Specification vocabulary: what a python user takes a distributed field collection and a file to be.  Every process has the
arrays of its part of the domain; the file is a table whose entries are arrays of the whole domain.
-/
namespace Verif.PyArrays
open Verif Verif.Collection Verif.Layout Verif.NetCDF Verif.PySession Verif.PyFile

variable {α U : Type} [Inhabited α] [DecidableEq U]

/-- The arrays of one process; the part of the domain starts at `loc` and has the extents of the grid of the arrays. -/
structure Part (α U : Type) where
  loc : List Int
  dict : Dict α U

/-- The pixel at the coordinates `g` of the domain belongs to the part. -/
def Part.Here (p : Part α U) (g : List Int) : Prop := InBoxAt p.dict.grid p.loc g

instance (p : Part α U) : DecidablePred p.Here := fun g => InBoxAt.dec _ _ g

/-- The element of the array `n`: component `cc`, sub-point `s`, pixel `g` of the domain. -/
def Part.at (p : Part α U) (n : String) (cc : List Int) (s : Int) (g : List Int) : α :=
  match p.dict.arrs n with
  | some a => a.val (cc ++ s :: relCoord g p.loc)
  | none => default

/-- The array `n` of the whole domain: every pixel has the values of the process it belongs to. -/
def whole (ps : List (Part α U)) (n : String) : Values α := fun _ cc s g =>
  match ps.find? fun p => p.Here g with
  | some p => p.at n cc s g
  | none => default

/-- The values of an array of the whole domain at the index (components…, sub-point, pixels…) of the part at `loc`. -/
def atPart (v : Values α) (k : Nat) (loc : List Int) (y : List Int) : α :=
  v 0 (y.take k) (y.getD k 0) (List.zipWith (· + ·) (y.drop (k + 1)) loc)

/-- The part after the arrays `names` were given the values of arrays of the whole domain. -/
def Part.give (names : List String) (cur : String → Values α) (p : Part α U) : Part α U :=
  ⟨p.loc, p.dict.grid, p.dict.tags, fun n =>
    if n ∈ names then (p.dict.arrs n).map fun a => { a with val := atPart (cur n) a.comps.length p.loc }
    else p.dict.arrs n⟩

/-- The processes and the file as the user sees them: whether the file is open for writing, its number of frames, the arrays
of the processes, and the entries of the table. -/
structure Shared (α U : Type) where
  writable : Bool
  nb : Int
  parts : List (Part α U)
  cell : Int → String → Option (Values α)

/-- The table, with the present arrays as present values. -/
def Shared.table (s : Shared α U) : Table (Values α) := ⟨s.writable, s.nb, whole s.parts, s.cell⟩

/-- The operations that give values to arrays. -/
def isRead : FileOp Empty → Bool
  | .read .. => true
  | .readAll .. => true
  | _ => false

/-- One statement: what it returns or throws, and what it leaves behind; `names` are the stored arrays. -/
def Shared.step (names : List String) (s : Shared α U) : PyOp α U → Res (Out α) × Shared α U
  | .py r op =>
      match s.parts[r]? with
      | none => (.ok .nothing, s)
      | some p => let q := p.dict.call op; (q.1, { s with parts := s.parts.set r { p with dict := q.2 } })
  | .file op =>
      let q := s.table.step names (lift op)
      (if q.1 then .ok .nothing else .throw .fileIOError,
        ⟨s.writable, q.2.nb, if isRead op then s.parts.map (Part.give names q.2.cur) else s.parts, q.2.cell⟩)

/-- A program. -/
def Shared.run (names : List String) : Shared α U → List (PyOp α U) → List (Res (Out α)) × Shared α U
  | s, [] => ([], s)
  | s, op :: ops => let q := s.step names op; let r := q.2.run names ops; (q.1 :: r.1, r.2)

/-- What must agree between processes and between programs for an array that is stored: name of the sub-division,
components, number of sub-points, type of the elements. -/
def Arr.stored (a : Arr α U) : String × List Int × Int × Collection.ElemType := (a.tag, a.comps, a.nb, a.ty)

/-- The array can be stored: it is not complex, a scalar array has one sub-point, and the names do not disturb the names of
the dimensions of the file. -/
structure Arr.CanStore (n : String) (a : Arr α U) : Prop where
  real : a.ty ≠ .complex
  scalar : nbPixels a.comps = 1 → a.nb = 1
  name : a.comps ≠ [] → Clean n
  tag : nbPixels a.comps ≠ 1 → Clean a.tag
  rank : a.comps.length ≤ 2147483647

/-- The parts make up the domain, and all processes have the same arrays, called `names`. -/
structure Together (dom : List Int) (names : List String) (ps : List (Part α U)) : Prop where
  pos : Pos dom
  dim : dom.length ≤ 3
  nonempty : ps ≠ []
  inside : ∀ p ∈ ps, Within dom p.dict.grid p.loc
  apart : ps.Pairwise fun p p' => ∀ g, p.Here g → ¬ p'.Here g
  cover : ∀ g, InBox dom g → ∃ p ∈ ps, p.Here g
  sorted : names.Pairwise (· < ·)
  called : ∀ p ∈ ps, ∀ n, n ∈ names ↔ (p.dict.arrs n).isSome
  same : ∀ p ∈ ps, ∀ p' ∈ ps, ∀ n a a', p.dict.arrs n = some a → p'.dict.arrs n = some a' → a.stored = a'.stored
  store : ∀ p ∈ ps, ∀ n a, p.dict.arrs n = some a → a.CanStore n

/-- The statement reads only what has been written. -/
def Shared.ReadsFilled (names : List String) (s : Shared α U) : PyOp α U → Prop
  | .py _ _ => True
  | .file op => s.table.ReadsFilled names (lift op)

/-- The extents of the part of a process, and its first pixel; without arguments it has the whole domain. -/
def grid (dom : List Int) (p : PyProc α U) : List Int := if p.sub = [] then dom else p.sub
def first (dom : List Int) (p : PyProc α U) : List Int := if p.loc = [] then (grid dom p).map fun _ => 0 else p.loc

/-- The arrays of a process after its first calls. -/
def partOf (dom : List Int) (p : PyProc α U) : Part α U :=
  ⟨first dom p, ((Dict.start (grid dom p) p.subPts).run p.setup).2⟩

end Verif.PyArrays
