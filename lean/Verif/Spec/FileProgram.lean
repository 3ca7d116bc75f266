import Verif.Spec.FileSession
import Verif.Props.NetCDFState
/-
What it means that the processes of a program have registered the variables of a file, that their memory
holds the values of a variable, and that the file does.
-/
namespace Verif.Props
open Verif Verif.Ccoord Verif.Layout Verif.Layout.FieldLayout Verif.RawMemory Verif.FileIO Verif.NetCDF
open Verif.Collection Verif.Collection.Coll

variable {α : Type}

/-- Outcome of an operation and what was expected. -/
def AsExpected : Res Unit → Bool → Prop
  | .ok _, b => b = true
  | .throw e, b => e = .fileIOError ∧ b = false
  | .ub, _ => False

/-- The memory of a variable on one process holds the values: those of the field, or the current and the
remembered values of the state field.  `view` gives the pixel of the whole domain for a pixel of the part. -/
def PartHolds (hist : Option Nat) (val : Values α) (f : IoField) (view : List Int → List Int) (m : ProcMem α) : Prop :=
  match hist with
  | none => ∃ b, m.bufs = [b] ∧ Holds f b fun cc s g => val 0 cc s (view g)
  | some N => ∃ c, m.idx = cycled N c ∧ m.bufs.length = N + 1 ∧ (∀ b ∈ m.bufs, ∃ w, Holds f b w) ∧
      HoldsHistory f N c m.bufs fun k cc s g => val k cc s (view g)

/-- The processes have registered their parts of a global field or state field; together they cover the
domain, without overlap.  `f` is the field of any process. -/
structure GlobalVar (x : SessVar) (f : IoField) : Prop where
  global : x.localName = none
  nonempty : x.parts ≠ []
  field : ∀ v ∈ x.parts, GlobalField v.field
  registered : ∀ v ∈ x.parts, ∃ grid grid', registerGlobalVar x.name v.field false x.hist grid = .ok (v, grid')
  same : ∀ v ∈ x.parts, SameField v.field f
  disjoint : x.parts.Pairwise fun v v' => ∀ g, InBoxAt v.field.layout.pixShape v.field.loc g →
    ¬ InBoxAt v'.field.layout.pixShape v'.field.loc g
  cover : ∀ g, InBox f.nbDomain g → ∃ v ∈ x.parts, InBoxAt v.field.layout.pixShape v.field.loc g

/-- The memories of all processes hold the values. -/
def GlobalHold (x : SessVar) (ms : List (ProcMem α)) (val : Values α) : Prop :=
  List.Forall₂ (fun v m => PartHolds x.hist val v.field id m) x.parts ms

/-- Entries of the history that share a field (`C21`) have the same values. -/
def Aliased (hist : Option Nat) (f : IoField) (dom : List Int → Prop) (val : Values α) : Prop :=
  ∀ N, hist = some N → ∀ k ≤ N, ∀ k' ≤ N, (initialIndices N)[k]? = (initialIndices N)[k']? →
    ∀ cc s g, InBox f.layout.comps cc → 0 ≤ s → s < f.layout.nbSub → dom g → val k cc s g = val k' cc s g

/-- The file has the values of the whole domain at frame `fr`. -/
structure GlobalStored (hist : Option Nat) (f : IoField) (fr : Int) (val : Values α) (d : List Int → α) : Prop where
  values : ∀ k, HistIdx k hist → ∀ cc s g, InBox f.layout.comps cc → 0 ≤ s → s < f.layout.nbSub →
    InBox f.nbDomain g → d (filePos f (leadPos false fr k hist) cc s g) = val k cc s g
  aliased : Aliased hist f (InBox f.nbDomain) val

/-- The form of the variable in the file. -/
def varForm (x : SessVar) : Form := match x.parts with | v :: _ => v.form | [] => ([], .other)

/-- A process with its part of a local field: the variable, the number of pixels of the process, the ids of
the pixels of the collection, and the pixel of the domain for each id. -/
structure LocalPart where
  v : Var
  size : Nat
  ids : List Int
  coord : Int → List Int

/-- The pixel of the domain at a place of the collection. -/
def LocalPart.view (p : LocalPart) (g : List Int) : List Int := p.coord (p.ids.getD (g.headD 0).toNat 0)

/-- The entries of the pixels of the process, when `M` gives the entry of each pixel of the domain. -/
def LocalPart.entries (p : LocalPart) (M : List Int → Int) : List Int :=
  (List.range p.size).map fun q : Nat => M (p.coord q)

/-- The processes have registered their parts of a local field or state field.  `M` gives the entry of each
pixel of the domain `dom` (-1 if it does not belong to the collection); pixels have been added in ascending
order. -/
structure LocalVar (x : SessVar) (f : IoField) (l : String) (ps : List LocalPart) (dom : List Int)
    (M : List Int → Int) (total : Int) : Prop where
  isLocal : x.localName = some l
  parts : x.parts = ps.map LocalPart.v
  nonempty : ps ≠ []
  field : ∀ p ∈ ps, LocalField p.v.field p.ids.length
  order : ∀ p ∈ ps, p.v.field.layout.order = .colMajor ∨ p.v.field.layout.nbDof = 1
  registered : ∀ p ∈ ps, ∃ lname marks0, registerLocalVar x.name p.v.field x.hist total lname marks0 = .ok p.v
  ty : ∀ p ∈ ps, p.v.field.ty = f.ty
  comps : ∀ p ∈ ps, p.v.field.layout.comps = f.layout.comps
  sub : ∀ p ∈ ps, p.v.field.layout.nbSub = f.layout.nbSub
  ascending : ∀ p ∈ ps, p.ids.Pairwise (· < ·)
  inside : ∀ p ∈ ps, ∀ id ∈ p.ids, 0 ≤ id ∧ id < (p.size : Int)
  marked : ∀ p ∈ ps, ∀ q : Nat, q < p.size → ((q : Int) ∈ p.ids ↔ M (p.coord q) ≠ -1)
  inDomain : ∀ p ∈ ps, ∀ q : Nat, q < p.size → InBox dom (p.coord q)
  distinct : ∀ p ∈ ps, ∀ q q' : Nat, q < p.size → q' < p.size → p.coord q = p.coord q' → q = q'
  apart : ps.Pairwise fun p p' => ∀ q q' : Nat, q < p.size → q' < p'.size → p.coord q ≠ p'.coord q'
  cover : ∀ g, InBox dom g → ∃ p ∈ ps, ∃ q : Nat, q < p.size ∧ p.coord q = g
  total_pos : 0 < total
  range : ∀ g, InBox dom g → M g ≠ -1 → 0 ≤ M g ∧ M g < total
  inj : ∀ g g', InBox dom g → InBox dom g' → M g ≠ -1 → M g = M g' → g = g'

/-- The memories of all processes hold the values of the pixels of the collection. -/
def LocalHold (x : SessVar) (ps : List LocalPart) (ms : List (ProcMem α)) (val : Values α) : Prop :=
  List.Forall₂ (fun p m => PartHolds x.hist val p.v.field p.view m) ps ms

/-- The file has the values of all pixels of the collection at frame `fr`, at their entries. -/
structure LocalStored (hist : Option Nat) (f : IoField) (dom : List Int) (M : List Int → Int) (fr : Int)
    (val : Values α) (d : List Int → α) : Prop where
  values : ∀ k, HistIdx k hist → ∀ cc s g, InBox f.layout.comps cc → 0 ≤ s → s < f.layout.nbSub →
    InBox dom g → M g ≠ -1 → d (filePos f (leadPos false fr k hist) cc s [M g]) = val k cc s g
  aliased : Aliased hist f (fun g => InBox dom g ∧ M g ≠ -1) val

/-- A process with its part of a hidden variable: the variable, the number of pixels, and the pixel of the
domain for each id. -/
structure HiddenPart where
  v : Var
  size : Nat
  coord : Int → List Int

/-- The entries of the pixels of the process, when `M` gives the entry of each pixel of the domain. -/
def HiddenPart.entries (p : HiddenPart) (M : List Int → Int) : List Int :=
  (List.range p.size).map fun q : Nat => M (p.coord q)

/-- The processes have registered the entries of a local collection: a field of `GFC_local_pixels` with one
component and one sub-point, column-major, with integers (`Index_t`); the pixel with id `q` is at place `q` of the memory. -/
structure HiddenVar (l : String) (hs : List HiddenPart) (dom : List Int) : Prop where
  nonempty : hs ≠ []
  field : ∀ p ∈ hs, GlobalField p.v.field
  registered : ∀ p ∈ hs, ∃ grid grid', registerGlobalVar l p.v.field true none grid = .ok (p.v, grid')
  order : ∀ p ∈ hs, p.v.field.layout.order = .colMajor
  ty : ∀ p ∈ hs, p.v.field.ty = .index
  comps : ∀ p ∈ hs, p.v.field.layout.comps = [1]
  sub : ∀ p ∈ hs, p.v.field.layout.nbSub = 1
  domain : ∀ p ∈ hs, p.v.field.nbDomain = dom
  disjoint : hs.Pairwise fun p p' => ∀ g, InBoxAt p.v.field.layout.pixShape p.v.field.loc g →
    ¬ InBoxAt p'.v.field.layout.pixShape p'.v.field.loc g
  cover : ∀ g, InBox dom g → ∃ p ∈ hs, InBoxAt p.v.field.layout.pixShape p.v.field.loc g
  place : ∀ p ∈ hs, ∀ q : Nat, q < p.size → InBoxAt p.v.field.layout.pixShape p.v.field.loc (p.coord q) ∧
    dot p.v.field.layout.pixStrides (relCoord (p.coord q) p.v.field.loc) = q
  pixel : ∀ p ∈ hs, ∀ g, InBoxAt p.v.field.layout.pixShape p.v.field.loc g → ∃ q : Nat, q < p.size ∧ p.coord q = g

/-- The file has the entries of all pixels of the domain. -/
def EntriesStored (dom : List Int) (M : List Int → Int) (fv : FileVar Int) : Prop :=
  ∀ g, InBox dom g → fv.data (0 :: g) = M g

/-- The form of the hidden variable in the file. -/
def hiddenForm (hs : List HiddenPart) : Form :=
  match hs with | p :: _ => p.v.form | [] => ([], .other)

/-- What all programs that use a file agree on: the domain; for each variable a field with its type, components,
sub-points and domain; for each local collection the entry of each pixel (-1 for pixels that do not belong to
it), and the number of its pixels. -/
structure FileDesc where
  dom : List Int
  fld : String → IoField
  entry : String → List Int → Int
  total : String → Int

/-- How the domain is distributed to the processes of a program, for each local variable and each local
collection. -/
structure Program where
  parts : String → List LocalPart
  hid : String → List HiddenPart

/-- The processes of a program have registered their parts of all variables. -/
structure Registered (D : FileDesc) (P : Program) (vars : List SessVar) (hidden : String → Option (List Var)) : Prop where
  nodup : (vars.map SessVar.name).Nodup
  global : ∀ x ∈ vars, x.localName = none → GlobalVar x (D.fld x.name)
  isLocal : ∀ x ∈ vars, ∀ l, x.localName = some l →
    LocalVar x (D.fld x.name) l (P.parts x.name) D.dom (D.entry l) (D.total l)
  hidden_eq : ∀ x ∈ vars, ∀ l, x.localName = some l → hidden l = some ((P.hid l).map HiddenPart.v)
  hid : ∀ x ∈ vars, ∀ l, x.localName = some l → HiddenVar l (P.hid l) D.dom
  pixels : ∀ x ∈ vars, ∀ l, x.localName = some l →
    (P.parts x.name).map (fun p => (p.size, p.coord)) = (P.hid l).map fun p => (p.size, p.coord)

/-- What a variable is for all programs. -/
def signature (x : SessVar) : String × Option Nat × Option String := (x.name, x.hist, x.localName)

/-- The memories of all processes of the program hold the values of the variable. -/
def VarHolds (P : Program) (x : SessVar) (ms : List (ProcMem α)) (val : Values α) : Prop :=
  match x.localName with
  | none => GlobalHold x ms val
  | some _ => LocalHold x (P.parts x.name) ms val

/-- The file has the values of the variable at frame `fr`. -/
def VarStored (D : FileDesc) (x : SessVar) (fr : Int) (val : Values α) (d : List Int → α) : Prop :=
  match x.localName with
  | none => GlobalStored x.hist (D.fld x.name) fr val d
  | some l => LocalStored x.hist (D.fld x.name) D.dom (D.entry l) fr val d

/-- The file contains the table `cell`: every value of the table is in the file, and the number of records is
one more than the last frame with a value.  (The table may have values of further variables, which the program does
not have.)  The entries of the pixels of a local collection are in the file
as soon as a variable of the collection has a value. -/
structure Contains (D : FileDesc) (P : Program) (vars : List SessVar) (file : NcFile α)
    (cell : Int → String → Option (Values α)) : Prop where
  each : ∀ x ∈ vars, ∃ fv, file.vars x.name = some fv ∧ fv.form = varForm x ∧
    ∀ fr val, cell fr x.name = some val → VarStored D x fr val fv.data
  recs : ∀ fr n val, cell fr n = some val → 0 ≤ fr ∧ fr < file.numrecs
  last : file.numrecs = 0 ∨ ∃ n val, cell (file.numrecs - 1) n = some val
  entries : ∀ x ∈ vars, ∀ l, x.localName = some l → ∃ fv, file.hidden l = some fv ∧
    fv.form = hiddenForm (P.hid l) ∧ (HasCell cell x.name → EntriesStored D.dom (D.entry l) fv)

end Verif.Props
