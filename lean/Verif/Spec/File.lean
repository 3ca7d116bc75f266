import Verif.Spec.Names
import Verif.Spec.Address
import Verif.Model.NetCDF
/-
Specification vocabulary for files: which fields can be stored, and what it means that the memory of
a field holds given values.
-/
namespace Verif
open Verif.NetCDF Verif.RawMemory

/-- The subdomain with extents `nb` at `loc` lies within the domain `N`, direction by direction.
Empty extents are allowed. -/
def Within : List Int → List Int → List Int → Prop
  | [], [], [] => True
  | N :: dom, n :: nb, l :: loc => 0 ≤ n ∧ 0 ≤ l ∧ l + n ≤ N ∧ Within dom nb loc
  | _, _, _ => False

instance Within.dec : ∀ dom nb loc, Decidable (Within dom nb loc)
  | [], [], [] => .isTrue trivial
  | N :: dom, n :: nb, l :: loc =>
      have := Within.dec dom nb loc
      inferInstanceAs (Decidable (0 ≤ n ∧ 0 ≤ l ∧ l + n ≤ N ∧ Within dom nb loc))
  | [], [], _ :: _ => .isFalse id
  | [], _ :: _, [] => .isFalse id
  | [], _ :: _, _ :: _ => .isFalse id
  | _ :: _, [], [] => .isFalse id
  | _ :: _, [], _ :: _ => .isFalse id
  | _ :: _, _ :: _, [] => .isFalse id

/-- The coordinates of a pixel relative to the subdomain. -/
def relCoord (g loc : List Int) : List Int := List.zipWith (· - ·) g loc

/-- Component `cc`, sub-point `s` and the pixel at `g` belong to the part of the field on this
process. -/
def InField (f : IoField) (cc : List Int) (s : Int) (g : List Int) : Prop :=
  InBox f.layout.comps cc ∧ 0 ≤ s ∧ s < f.layout.nbSub ∧ InBoxAt f.layout.pixShape f.loc g

/-- The address within the memory of the field, by the strides `st` of the sub-point view. -/
def memPos (f : IoField) (st : List Int) (cc : List Int) (s : Int) (g : List Int) : Int :=
  dot st (cc ++ s :: relCoord g f.loc)

/-- The memory `buf` of the field holds the values `val`: at the address given by the strides of the
sub-point view for component `cc`, sub-point `s` and the pixel with (global) coordinates `g` of the
subdomain, it has the value `val cc s g`. -/
def Holds {α : Type} (f : IoField) (buf : Mem α) (val : List Int → Int → List Int → α) : Prop :=
  ∃ st, f.layout.strides .subPt 1 = .ok st ∧
    ∀ cc s g, InField f cc s g → buf (memPos f st cc s g) = some (val cc s g)

/-- The memories agree except where the field has elements. -/
def SameOutside {α : Type} (f : IoField) (buf buf' : Mem α) : Prop :=
  ∃ st, f.layout.strides .subPt 1 = .ok st ∧
    ∀ a, (∀ cc s g, InField f cc s g → a ≠ memPos f st cc s g) → buf' a = buf a

/-- The coordinates of a value in the file: frame (and index into the history of a state field),
component, sub-point (unless the field has a single component), global coordinates of the pixel. -/
def filePos (f : IoField) (lead : List Int) (cc : List Int) (s : Int) (g : List Int) : List Int :=
  lead ++ (cc ++ ((if f.layout.nbComp = 1 then [] else [s]) ++ g))

/-- The leading coordinates for a plain field (`none`) or entry `k` of a state field; a hidden variable has
no frames. -/
def leadPos (hidden : Bool) (frame : Int) (k : Nat) : Option Nat → List Int
  | none => if hidden then [] else [frame]
  | some _ => [frame, k]

/-- `k` is an index into the history (0 for a plain field). -/
def HistIdx (k : Nat) : Option Nat → Prop
  | none => k = 0
  | some m => k ≤ m

/-- What holds for every field of an initialised global collection: a known storage order, positive
shapes, a subdomain inside the domain, pixels with their own places in the buffer. -/
structure GlobalField (f : IoField) : Prop where
  order : f.layout.order = .colMajor ∨ f.layout.order = .rowMajor
  comps_pos : Pos f.layout.comps
  comps_len : f.layout.comps.length ≤ 2147483647
  sub_pos : 0 < f.layout.nbSub
  is_global : f.isGlobal = true
  dom_pos : Pos f.nbDomain
  inside : Within f.nbDomain f.layout.pixShape f.loc
  addressing : Addressing f.layout.pixShape f.layout.pixStrides f.layout.nbBuf

/-- What holds for every field of an initialised local collection with `n` pixels: a known storage
order, positive shapes, pixels one after the other.  The "coordinate" of a pixel is the number `[i]` of
its place in the collection. -/
structure LocalField (f : IoField) (n : Int) : Prop where
  order : f.layout.order = .colMajor ∨ f.layout.order = .rowMajor
  comps_pos : Pos f.layout.comps
  comps_len : f.layout.comps.length ≤ 2147483647
  sub_pos : 0 < f.layout.nbSub
  is_local : f.isGlobal = false
  shape : f.layout.pixShape = [n]
  strides : f.layout.pixStrides = [1]
  nbBuf : f.layout.nbBuf = n
  loc : f.loc = [0]
  nonneg : 0 ≤ n

/-- The values of a local field from values per pixel: place `i` belongs to the `i`-th pixel of the
collection. -/
def atPixels {α : Type} (ids : List Int) (pval : List Int → Int → Int → α) :
    List Int → Int → List Int → α :=
  fun cc s g => pval cc s (ids.getD (g.headD 0).toNat 0)

/-- What a variable in a file is: its shape and the type of its elements. -/
abbrev NetCDF.Form := List (Option Int) × NetCDFAtt.NcType
def NetCDF.FileVar.form {α : Type} (fv : FileVar α) : Form := (fv.shape, fv.ty)

/-- What the variable in a file should be for a registered variable. -/
def NetCDF.Var.form (v : Var) : Form := (fileShape v.dims, v.dataType)

/-- Two fields are parts of the same field of the whole domain, or store such fields: same type, component
shape, number of sub-points and domain.  Storage order and decomposition may differ. -/
structure SameField (f g : IoField) : Prop where
  ty : f.ty = g.ty
  comps : f.layout.comps = g.layout.comps
  sub : f.layout.nbSub = g.layout.nbSub
  domain : f.nbDomain = g.nbDomain

end Verif
