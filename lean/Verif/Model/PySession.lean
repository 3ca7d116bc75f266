import Verif.Model.PyField
/-
A python program working with one field collection: the bindings
`/repo/language_bindings/python/bind_py_field_collection.cc` 64-290, `bind_py_field.cc` 69-131 and, as
trusted library, the indexing of numpy arrays.
-/
namespace Verif.PySession
open Verif Verif.Ccoord Verif.Layout Verif.RawMemory Verif.Numpy Verif.Collection Verif.PyField

/-- The index of numpy on one axis: negative numbers count from the end.  numpy (trusted); used on the arrays
returned at bind_py_field.cc 88-91. -/
def npAxis (n i : Int) : Option Int :=
  if 0 ≤ i ∧ i < n then some i else if -n ≤ i ∧ i < 0 then some (i + n) else none

/-- The index of numpy with integers for the first axes; `none` is an `IndexError`: an index out of range, or
more indices than axes.  numpy (trusted); used on the arrays returned at bind_py_field.cc 88-91. -/
def npIndex : List Int → List Int → Option (List Int)
  | _, [] => some []
  | [], _ :: _ => none
  | n :: shape, i :: idx =>
      match npAxis n i, npIndex shape idx with
      | some j, some js => some (j :: js)
      | _, _ => none

/-- The indices of an array in the order of `flatten`: the last axis runs fastest.  numpy (trusted); used on
the arrays returned at bind_py_field.cc 88-91. -/
def npAll : List Int → List (List Int)
  | [] => [[]]
  | n :: shape => (List.range n.toNat).flatMap (fun i : Nat => (npAll shape).map ((i : Int) :: ·))

variable {α U : Type} [Inhabited α] [DecidableEq U]

/-- Load of the element at an address in bytes, from the buffer of a field (`data()`, field_typed.hh 274). -/
def load (vals : List α) (item addr : Int) : Res α :=
  if addr % item = 0 ∧ 0 ≤ addr / item then
    match vals[(addr / item).toNat]? with
    | some v => .ok v
    | none => .ub
  else .ub

/-- Store of an element at an address in bytes, in the buffer of a field (`data()`, field_typed.hh 274). -/
def store (vals : List α) (item addr : Int) (v : α) : Res (List α) :=
  if addr % item = 0 ∧ 0 ≤ addr / item ∧ addr / item < vals.length then .ok (vals.set (addr / item).toNat v)
  else .ub

/-- Loads of the elements at several addresses.  numpy (trusted); used on the arrays returned at
bind_py_field.cc 88-91. -/
def loadAll (vals : List α) (item : Int) : List Int → Res (List α)
  | [] => .ok []
  | a :: as => do
      let v ← load vals item a
      let vs ← loadAll vals item as
      pure (v :: vs)

/-- Stores of a number at several addresses.  numpy (trusted); used on the arrays returned at
bind_py_field.cc 88-91. -/
def storeAll (item : Int) (v : α) : List Int → List α → Res (List α)
  | [], vals => .ok vals
  | a :: as, vals => do
      let vals' ← store vals item a v
      storeAll item v as vals'

/-- The addresses of the elements `a[idx]` of an array.  numpy (trusted); used on the arrays returned at
bind_py_field.cc 88-91. -/
def addresses (a : NpArray) (i : List Int) : List Int :=
  (npAll (a.shape.drop i.length)).map (fun r => linearIndex (i ++ r) a.strides)

/-- `f.s[idx]` or `f.p[idx]`, the elements in the order of `flatten`: bind_py_field.cc 88-91 and numpy.  An
array that has memory of its own (before the collection is initialised) shows undefined values. -/
def getItem (c : Coll α U) (name : String) (it : IterUnit) (item : Int) (idx : List Int) : Res (List α) :=
  match c.fields.find name with
  | none => .throw .fieldCollectionError
  | some f =>
      match view c name it item with
      | .throw e => .throw e
      | .ub => .ub
      | .ok (.detached _) => .ub
      | .ok (.window a) =>
          match npIndex a.shape idx with
          | none => .throw .outOfRange
          | some i => loadAll f.vals item (addresses a i)

/-- `f.s[idx] = v` or `f.p[idx] = v`: bind_py_field.cc 88-91 and numpy, which stores the number in every
element of a part of an array. -/
def setItem (c : Coll α U) (name : String) (it : IterUnit) (item : Int) (idx : List Int) (v : α) :
    Res Unit × Coll α U :=
  match c.fields.find name with
  | none => (.throw .fieldCollectionError, c)
  | some f =>
      match view c name it item with
      | .throw e => (.throw e, c)
      | .ub => (.ub, c)
      | .ok (.detached a) =>
          match npIndex a.shape idx with
          | none => (.throw .outOfRange, c)
          | some _ => (.ok (), c)
      | .ok (.window a) =>
          match npIndex a.shape idx with
          | none => (.throw .outOfRange, c)
          | some i =>
              match storeAll item v (addresses a i) f.vals with
              | .ok vals => (.ok (), { c with fields := c.fields.insert name { f with vals := vals } })
              | .throw e => (.throw e, c)
              | .ub => (.ub, c)

/-- What a python program does with a collection; fields are called by their names (`get_field`,
bind_py_field_collection.cc 394-395).  `field` is `register_*_field` (`new`), lines 68-160, or `*_field`, 233-320;
`setNbSubPts` line 390; `assign` is `f.s = a` or `f.p = a`, bind_py_field.cc 93-109, of an array with the memory
`inp`; `setZero` bind_py_field.cc 71; `exists` line 382. -/
inductive PyCall (α U : Type)
  | field (name : String) (ty : ElemType) (comps : Comps) (tag : String) (unit : U) (new : Bool)
  | setNbSubPts (tag : String) (n : Int)
  | assign (name : String) (it : IterUnit) (a : NpArray) (inp : Mem α)
  | setItem (name : String) (it : IterUnit) (idx : List Int) (v : α)
  | getItem (name : String) (it : IterUnit) (idx : List Int)
  | setZero (name : String)
  | exists (name : String)

/-- What a call returns to the python program.  bind_py_field_collection.cc 64-440, bind_py_field.cc 69-131. -/
inductive Out (α : Type)
  | nothing
  | values (l : List α)
  | truth (b : Bool)
  deriving DecidableEq, Repr

/-- A call that returns nothing of interest.  Model only, for bind_py_field_collection.cc 64-440. -/
def quiet (r : Res Unit × Coll α U) : Res (Out α) × Coll α U :=
  (match r.1 with | .ok _ => .ok .nothing | .throw e => .throw e | .ub => .ub, r.2)

/-- The size of the elements of a field of the collection.  `sizeof(T)`, bind_py_field.cc 102. -/
def itemOf (size : ElemType → Int) (c : Coll α U) (name : String) : Int :=
  match c.fields.find name with
  | some f => size f.ty
  | none => 1

/-- One call; see `PyCall`.  bind_py_field_collection.cc 64-440, bind_py_field.cc 69-131. -/
def call (srt : SortFn) (size : ElemType → Int) (c : Coll α U) : PyCall α U → Res (Out α) × Coll α U
  | .field name ty comps tag unit new => quiet (c.register name ty comps tag unit (!new))
  | .setNbSubPts tag n => quiet (c.setNbSubPts tag n)
  | .assign name it a inp => quiet (setArray srt c name it a inp)
  | .setItem name it idx v => quiet (setItem c name it (itemOf size c name) idx v)
  | .getItem name it idx =>
      (match getItem c name it (itemOf size c name) idx with
        | .ok l => .ok (.values l) | .throw e => .throw e | .ub => .ub, c)
  | .setZero name => quiet (c.onField name Field.setZero)
  | .exists name => (.ok (.truth (c.fieldExists name)), c)

/-- A program, with what each call returns or throws (exceptions are caught); undefined behaviour ends it.
Programs are not part of /repo. For bind_py_field_collection.cc 64-513. -/
def run (srt : SortFn) (size : ElemType → Int) (c : Coll α U) : List (PyCall α U) → List (Res (Out α)) × Coll α U
  | [] => ([], c)
  | op :: ops =>
      match call srt size c op with
      | (.ub, c') => ([.ub], c')
      | (r, c') => match run srt size c' ops with | (rs, c'') => (r :: rs, c'')

/-- `GlobalFieldCollection(nb_domain_grid_pts, nb_subdomain_grid_pts, subdomain_locations, sub_pts,
storage_order)`, field_collection_global.cc 48-57, bound at bind_py_field_collection.cc 463-470. -/
def newGlobal (srt : SortFn) (dom sub loc : List Int) (subPts : SMap String Int) (order : StorageOrder) :
    Res (Coll α U) :=
  match (Coll.mk' true dom.length order subPts : Res (Coll α U)) with
  | .throw e => .throw e
  | .ub => .ub
  | .ok c =>
      match c.initGlobalOrder srt dom sub loc .automatic with
      | (.ok _, c') => .ok c'
      | (.throw e, _) => .throw e
      | (.ub, _) => .ub

end Verif.PySession
