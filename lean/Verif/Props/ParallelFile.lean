import Verif.Lemmas.ParallelFile
import Verif.Props.NetCDFLocal
/-
**C97** Transfers in the parallel build.
-/
namespace Verif.Props
open Verif Verif.Ccoord Verif.Layout Verif.Layout.FieldLayout Verif.RawMemory Verif.FileIO Verif.NetCDF
open Verif.NetCDFAtt (NcType)
open Verif.Collection (ElemType)

variable {α : Type}

/-! ### Examples -/

/-- The variable of the field `exLeft`. -/
def exStressVar : Var := ⟨"stress", exLeft, none, exDims, false, ""⟩

theorem exStressVar_registered : exStressVar.Registered :=
  .inl ⟨_, _, _, _, _, _, exLeft_global, by decide, by decide, exLeft_registered⟩

theorem exLocalVar_registered : exLocalVar.Registered :=
  .inr ⟨_, _, _, _, _, _, _, exLocalField_field, by decide, exLocalField_registered⟩

/-- A file with both variables and two records. -/
def exParFile : ParFile Int :=
  ⟨fun n => if n = "stress" then some ⟨fileShape exStressVar.dims, .double, fun _ => 0⟩
    else if n = "plastic" then some ⟨fileShape exLocalVar.dims, .double, fun _ => 1⟩ else none, 2, false⟩

theorem exParFile_stress : exParFile.Typed exStressVar := by
  intro fv h; cases h; rfl

theorem exParFile_plastic : exParFile.Typed exLocalVar := by
  intro fv h; cases h; rfl

/-- Conversion that shows in the values. -/
def exConv : Conv Int := fun t t' x => if t = t' then x else x + 100

theorem exConv_faithful : exConv.Faithful := fun _ _ => if_pos rfl

/-! ### What is handed to PnetCDF -/

/-- **C97** The number of elements announced for a global field is that of the request, and the announced MPI type is that of
the elements in memory. -/
theorem C97_arguments_global {v : Var} {vname : String} {f : IoField} {hidden : Bool} {hist : Option Nat}
    {grid grid' : List Int} (hf : GlobalField f) (hh : hidden = true → f.layout.nbSub = 1)
    (hn : f.nbPixels = getSize f.layout.pixShape) (hreg : registerGlobalVar vname f hidden hist grid = .ok (v, grid')) :
    (∃ t, mpiTypeOf v.dataType = .ok t ∧ ncTypeOf f.ty = .ok t.elements) ∧
      ∀ count, v.countGlobal = .ok count → getSize count = v.bufcountGlobal := by
  obtain ⟨hv, hs, hg⟩ := registered hf hh hreg
  obtain ⟨t, h1, h2, -⟩ := mpi_dataType (v := v) (by rw [hv.field]; exact hv.ty)
  rw [hv.field] at h2
  exact ⟨⟨t, h1, h2⟩, fun count hc => count_global hv hs hg hn hc⟩

example : GlobalField exLeft ∧ exLeft.nbPixels = getSize exLeft.layout.pixShape ∧ exStressVar.bufcountGlobal = 72 ∧
    exStressVar.countGlobal = .ok [1, 2, 2, 3, 2, 3] := ⟨exLeft_global, by decide, by decide, by decide +kernel⟩

/-- **C97** The same for the requests of a local field; after every request the pointer has moved by the size of the elements
of the field. -/
theorem C97_arguments_local {v : Var} {vname : String} {f : IoField} {hist : Option Nat} {total n : Int} {lname : String}
    {marks0 : List Int} (hf : LocalField f n) (ht : 0 < total) (hreg : registerLocalVar vname f hist total lname marks0 = .ok v)
    (marks : List Int) :
    (∃ t, mpiTypeOf v.dataType = .ok t ∧ ncTypeOf f.ty = .ok t.elements) ∧
      (∀ counts, v.countLocal marks = .ok counts → ∀ count ∈ counts, getSize count = v.bufcountLocal) ∧
      ∀ ptr m, incrementBufPtr v.dataType ptr m = .ok (ptr + elemBytes f.ty * m) := by
  obtain ⟨hv, hs⟩ := registered_local hf ht hreg
  have hty : v.field.ty ≠ .complex := by rw [hv.field]; exact hv.ty
  obtain ⟨t, h1, h2, -⟩ := mpi_dataType hty
  rw [hv.field] at h2
  refine ⟨⟨t, h1, h2⟩, fun counts hc count hm => ?_, fun ptr m => ?_⟩
  · rw [countLocal_eq hv hs] at hc
    cases hc
    obtain ⟨-, -, rfl⟩ := List.mem_map.1 hm
    exact count_local hv hs
  · rw [incrementBufPtr, cast_dataType hty, hv.field]
    rfl

example : LocalField exLocalField 3 ∧ exLocalVar.bufcountLocal = 4 ∧
    exLocalVar.countLocal [-1, 8, -1, 9, 7, -1] = .ok [[1, 2, 2, 1], [1, 2, 2, 1], [1, 2, 2, 1]] ∧
    incrementBufPtr exLocalVar.dataType 32 4 = .ok 64 := ⟨exLocalField_field, by decide, by decide +kernel, by decide +kernel⟩

/-! ### The same transfers as in the serial build -/

/-- **C97** A transfer of a registered field has the same outcome in both builds, with the same file and memory afterwards; for
all frames, entries of the local pixels, files and memories.  The file must not be in the independent mode, see `C97_stuck`. -/
theorem C97_transfer {conv : Conv α} (hc : conv.Faithful) {x : Transfer} (hx : x.v.Registered) {s : ParFile α}
    (ht : s.Typed x.v) (hi : s.indep = false) (buf : Mem α) : Fits s buf (x.serial s buf) (x.parallel conv s buf) :=
  parallel_fits hc hx ht hi buf

/-- Writing the second frame of the local field: the hypotheses are met and the transfer succeeds. -/
example : exConv.Faithful ∧ exLocalVar.Registered ∧ exParFile.Typed exLocalVar ∧ exParFile.indep = false ∧
    ((Transfer.mk exLocalVar 2 1 0 [-1, 8, -1, 9, 7, -1] false).parallel exConv exParFile
      (fun a => if 0 ≤ a ∧ a < 12 then some a else none)).1 = .ok () :=
  ⟨exConv_faithful, exLocalVar_registered, exParFile_plastic, rfl, by decide +kernel⟩

theorem typed_put {s : ParFile α} {v w : Var} {fv : FileVar α} {fr : Int} (h : s.Typed w) (hfv : v.name = w.name → fv.ty = w.dataType) :
    (s.put v.name fv fr).Typed w := by
  intro g hg
  simp only [ParFile.put] at hg
  split at hg
  · rename_i he
    cases hg
    exact hfv he.symm
  · exact h g hg

/-- A transfer keeps the types of the variables. -/
theorem typed_serial {x : Transfer} {s s' : ParFile α} {buf b : Mem α} (h : x.serial s buf = .ok (s', b)) {w : Var}
    (hw : s.Typed w) : s'.Typed w ∧ s'.indep = s.indep := by
  unfold Transfer.serial at h
  cases hv : s.var x.v.name with
  | none => rw [hv] at h; cases h
  | some fv =>
    rw [hv] at h
    dsimp only at h
    obtain ⟨fr, -, h⟩ := Res.bind_eq_ok.1 h
    have key : ∀ fv', fv'.ty = fv.ty → (s.put x.v.name fv' fr).Typed w := fun fv' e =>
      typed_put hw fun he => by rw [e]; exact hw fv (by rw [← he]; exact hv)
    split at h
    · obtain ⟨fv', h1, h⟩ := Res.bind_eq_ok.1 h
      cases h
      exact ⟨key _ (writeGlobal_ty h1), rfl⟩
    · obtain ⟨b', h1, h⟩ := Res.bind_eq_ok.1 h
      cases h
      exact ⟨hw, rfl⟩
    · obtain ⟨fv', h1, h⟩ := Res.bind_eq_ok.1 h
      cases h
      exact ⟨key _ (writeLocal_ty h1), rfl⟩
    · obtain ⟨b', h1, h⟩ := Res.bind_eq_ok.1 h
      cases h
      exact ⟨hw, rfl⟩

/-- **C97** (part) A program of transfers that succeeds in the serial build does the same in the parallel build: no exception,
the same file and the same memory of all fields.  Missing: programs that catch exceptions, see `C97_false`. -/
theorem C97_programs_partial {conv : Conv α} (hc : conv.Faithful) {xs : List Transfer} {s : ParFile α}
    {mem : String × Nat → Mem α} (hx : ∀ x ∈ xs, x.v.Registered ∧ s.Typed x.v) (hi : s.indep = false)
    {s' : ParFile α} {mem' : String × Nat → Mem α} (h : runSerial xs s mem = .ok (s', mem')) :
    runParallel conv xs s mem = (xs.map fun _ => .ok (), s', mem') := by
  induction xs generalizing s mem with
  | nil => cases h; rfl
  | cons x xs ih =>
    rw [runSerial] at h
    obtain ⟨⟨s1, b⟩, h1, h⟩ := Res.bind_eq_ok.1 h
    obtain ⟨hreg, hty⟩ := hx x (List.mem_cons_self ..)
    obtain ⟨e1, e2, -⟩ := parallel_fits hc hreg hty hi (mem (x.v.name, x.k))
    rw [h1] at e1
    have e3 := e2 _ _ h1
    have hi1 := (typed_serial h1 hty).2
    have := ih (s := s1) (fun y hy => ⟨(hx y (List.mem_cons_of_mem _ hy)).1,
      (typed_serial h1 (hx y (List.mem_cons_of_mem _ hy)).2).1⟩) (hi1.trans hi) h
    rw [runParallel]
    rw [e3, e1, this]
    rfl

/-- Write the local field, write the other one, read the local field into the same memory. -/
def exTransfers : List Transfer :=
  [⟨exLocalVar, 2, 1, 0, [-1, 8, -1, 9, 7, -1], false⟩, ⟨exStressVar, 2, -1, 0, [], false⟩,
    ⟨exLocalVar, 2, 0, 0, [-1, 8, -1, 9, 7, -1], true⟩]

example : (∀ x ∈ exTransfers, x.v.Registered ∧ exParFile.Typed x.v) ∧
    outcome (runSerial exTransfers exParFile fun _ a => if 0 ≤ a ∧ a < 72 then some a else none) = .ok () :=
  ⟨by simp only [exTransfers, List.mem_cons, List.not_mem_nil, or_false]
      rintro x (rfl | rfl | rfl)
      · exact ⟨exLocalVar_registered, exParFile_plastic⟩
      · exact ⟨exStressVar_registered, exParFile_stress⟩
      · exact ⟨exLocalVar_registered, exParFile_plastic⟩, by decide +kernel⟩

/-! ### Other types in the file -/

/-- **C97** If the variable in the file has elements of another type (the serial build then reads and writes wrong memory, C83),
the parallel build stores every value converted to that type, at its place; nothing else changes. -/
theorem C97_converts_write {v : Var} {vname : String} {f : IoField} {hidden : Bool} {hist : Option Nat} {grid grid' : List Int}
    (hf : GlobalField f) (hh : hidden = true → f.layout.nbSub = 1) (hn : f.nbPixels = getSize f.layout.pixShape)
    (hreg : registerGlobalVar vname f hidden hist grid = .ok (v, grid')) (conv : Conv α)
    {nb frame fr : Int} {k : Nat} (hfr : varFrame nb frame = .ok fr) (hk : HistIdx k hist)
    {buf : Mem α} {val : List Int → Int → List Int → α} (hb : Holds f buf val)
    {fv : FileVar α} (hsh : fv.shape = fileShape v.dims) :
    ∃ fv', v.writeGlobalMpi conv nb frame k buf fv = .ok fv' ∧ fv'.form = fv.form ∧
      (∀ cc s g, InField f cc s g →
        fv'.data (filePos f (leadPos hidden fr k hist) cc s g) = conv v.dataType fv.ty (val cc s g)) ∧
      ∀ y, (∀ cc s g, InField f cc s g → y ≠ filePos f (leadPos hidden fr k hist) cc s g) →
        fv'.data y = fv.data y := by
  obtain ⟨hv, hs, hg⟩ := registered hf hh hreg
  rw [writeGlobalMpi_eq hv hs hg hn]
  have hb' : Holds f (fun a => (buf a).map (conv v.dataType fv.ty)) (fun cc s g => conv v.dataType fv.ty (val cc s g)) := by
    obtain ⟨st, h1, h2⟩ := hb
    exact ⟨st, h1, fun cc s g hin => congrArg (Option.map (conv v.dataType fv.ty)) (h2 cc s g hin)⟩
  obtain ⟨fv', h1, h2, h3, h4⟩ := C35_write hf hh hreg hfr hk hb' (fv := ⟨fv.shape, v.dataType, fv.data⟩)
    (by rw [NetCDF.FileVar.form, NetCDF.Var.form, hsh])
  rw [h1]
  have hs' : fv'.shape = fv.shape := congrArg Prod.fst h2
  exact ⟨_, rfl, Prod.ext_iff.2 ⟨hs', rfl⟩, h3, h4⟩

/-- The memory of `exLeft` with the addresses as values. -/
theorem exLeft_holds : ∃ val, Holds exLeft (fun a => if 0 ≤ a ∧ a < 72 then some a else none) val := by
  refine ⟨fun cc s g => dot [1, 2, 4, 12, 24] (cc ++ s :: relCoord g [0, 0]), [1, 2, 4, 12, 24], by decide, ?_⟩
  rintro cc s g ⟨h1, h2, h3, h4⟩
  rcases cc with _ | ⟨x, _ | ⟨y, _ | ⟨z, cc⟩⟩⟩ <;> simp [exLeft, InBox] at h1 h3
  rcases g with _ | ⟨a, _ | ⟨b, _ | ⟨c, g⟩⟩⟩ <;> simp [exLeft, InBoxAt] at h4
  have e : memPos exLeft [1, 2, 4, 12, 24] [x, y] s [a, b] = x + (2 * y + (4 * s + (12 * a + 24 * b))) := by
    simp [memPos, exLeft, relCoord, dot]
  rw [e]
  beta_reduce
  rw [if_pos (by omega)]
  simp [relCoord, dot]

/-- A file with 32 bit integers: the value at the second component of the first pixel is converted. -/
example : varFrame 2 1 = .ok 1 ∧ HistIdx 0 none ∧
    (∃ val, Holds exLeft (fun a => if 0 ≤ a ∧ a < 72 then some a else none) val) ∧
    (exStressVar.writeGlobalMpi exConv 2 1 0 (fun a => if 0 ≤ a ∧ a < 72 then some a else none)
        ⟨fileShape exStressVar.dims, .int, fun _ => 0⟩).bind
      (fun fv' => .ok (fv'.data [1, 1, 0, 0, 0, 0], fv'.data [0, 1, 0, 0, 0, 0])) = .ok (101, 0) := ⟨by decide, rfl, exLeft_holds, by decide +kernel⟩

/-- **C97** The same for reading: the field gets every value converted to its own type. -/
theorem C97_converts_read {v : Var} {vname : String} {f : IoField} {hidden : Bool} {hist : Option Nat} {grid grid' : List Int}
    (hf : GlobalField f) (hh : hidden = true → f.layout.nbSub = 1) (hn : f.nbPixels = getSize f.layout.pixShape)
    (hreg : registerGlobalVar vname f hidden hist grid = .ok (v, grid')) (conv : Conv α)
    {nb frame fr numrecs : Int} {k : Nat} (hfr : varFrame nb frame = .ok fr) (hk : HistIdx k hist) (hnr : fr < numrecs)
    {buf : Mem α} {val : List Int → Int → List Int → α} (hb : Holds f buf val)
    {fv : FileVar α} (hsh : fv.shape = fileShape v.dims) :
    ∃ buf', v.readGlobalMpi conv nb frame k numrecs fv buf = .ok buf' ∧
      Holds f buf' (fun cc s g => conv fv.ty v.dataType (fv.data (filePos f (leadPos hidden fr k hist) cc s g))) ∧
      SameOutside f buf buf' := by
  obtain ⟨hv, hs, hg⟩ := registered hf hh hreg
  rw [readGlobalMpi_eq hv hs hg hn]
  exact C35_read hf hh hreg hfr hk hnr hb (fv := fv.shownAs conv v.dataType)
    (by rw [NetCDF.FileVar.form, NetCDF.Var.form, FileVar.shownAs, hsh])

example : varFrame 2 1 = .ok 1 ∧ HistIdx 0 none ∧
    (exStressVar.readGlobalMpi exConv 2 1 0 2 ⟨fileShape exStressVar.dims, .int, fun y => dot [50, 1, 2, 4, 8, 16] y⟩
        (fun a => if 0 ≤ a ∧ a < 72 then some 0 else none)).bind (fun b => .ok (b 1, b 72)) = .ok (some 151, none) := ⟨by decide, rfl, by decide +kernel⟩

/-! ### Exceptions -/

/-- **C97** After an exception from reading a local field the file is in the independent mode, whatever it was before. -/
theorem C97_left_independent {conv : Conv α} {x : Transfer} (hl : x.v.field.isGlobal = false) (hr : x.read = true)
    {s : ParFile α} (hv : s.var x.v.name ≠ none) {fr : Int} (hfr : handleFrame x.frame x.nb = .ok fr) {buf : Mem α} {e : Err}
    (h : (x.parallel conv s buf).1 = .throw e) : (x.parallel conv s buf).2.1 = { s with indep := true } := by
  unfold Transfer.parallel at h ⊢
  cases hfv : s.var x.v.name with
  | none => exact absurd hfv hv
  | some fv =>
    rw [hfv] at h
    simp only [hfr, hl, Bool.false_eq_true, if_false] at h ⊢
    unfold Transfer.localMpi at h ⊢
    cases hp : x.v.prepareLocal x.nb x.frame x.k x.marks with
    | throw e => simp [hr]
    | ub => rw [hp] at h; cases h
    | ok p =>
      obtain ⟨reqs, stride, imap, t⟩ := p
      simp only [hp, hr, if_true] at h ⊢
      cases hg : x.v.getRequestsMpi conv stride imap t fv s.numrecs reqs 0 buf with
      | ok b => rw [hg] at h; cases h
      | throw e => rfl
      | ub => rw [hg] at h; cases h

/-- Reading a frame that was appended but not written yet (`exParFile` has two records, the file object three frames). -/
def exReadMissing : Transfer := ⟨exLocalVar, 3, 2, 0, [-1, 8, -1, 9, 7, -1], true⟩

theorem exReadMissing_throws : (exReadMissing.parallel exConv exParFile fun a => if 0 ≤ a ∧ a < 12 then some a else none).1 =
    .throw .fileIOError := by decide +kernel

example : exReadMissing.v.field.isGlobal = false ∧ exReadMissing.read = true ∧
    handleFrame exReadMissing.frame exReadMissing.nb = .ok 2 := ⟨rfl, rfl, by decide⟩

/-- **C97** From then on every transfer of a global field raises an exception and moves nothing. -/
theorem C97_stuck (conv : Conv α) {ys : List Transfer} (hy : ∀ y ∈ ys, y.v.field.isGlobal = true) {s : ParFile α}
    (hi : s.indep = true) (mem : String × Nat → Mem α) :
    runParallel conv ys s mem = (ys.map fun _ => .throw .fileIOError, s, mem) := by
  induction ys generalizing mem with
  | nil => rfl
  | cons y ys ih =>
    have key : ∀ buf : Mem α, y.parallel conv s buf = (.throw .fileIOError, s, buf) := by
      intro buf
      unfold Transfer.parallel
      cases s.var y.v.name with
      | none => rfl
      | some fv =>
        have hf : handleFrame y.frame y.nb = .throw .fileIOError ∨ ∃ fr, handleFrame y.frame y.nb = .ok fr := by
          unfold handleFrame
          dsimp only
          split
          · split
            · exact .inl rfl
            · exact .inr ⟨_, rfl⟩
          · split
            · exact .inl rfl
            · exact .inr ⟨_, rfl⟩
        rcases hf with hf | ⟨fr, hf⟩
        · simp only [hf]
        · simp only [hf, hy y (List.mem_cons_self ..), if_true, Transfer.globalMpi, hi]
    rw [runParallel, key]
    dsimp only
    have hm : (fun n => if n = (y.v.name, y.k) then mem (y.v.name, y.k) else mem n) = mem := by
      funext n
      split
      · rename_i h; rw [h]
      · rfl
    rw [hm, ih (fun z hz => hy z (List.mem_cons_of_mem _ hz))]
    rfl

example : (∀ y ∈ [Transfer.mk exStressVar 3 2 0 [] false, Transfer.mk exStressVar 3 0 0 [] true], y.v.field.isGlobal = true) ∧
    (exReadMissing.parallel exConv exParFile fun a => if 0 ≤ a ∧ a < 12 then some a else none).2.1.indep = true := by
  refine ⟨by decide, by decide +kernel⟩

/-- **C97** A transfer of a local field that succeeds ends the independent mode. -/
theorem C97_recovers {conv : Conv α} {x : Transfer} (hl : x.v.field.isGlobal = false) {s : ParFile α} {buf : Mem α}
    (h : (x.parallel conv s buf).1 = .ok ()) : (x.parallel conv s buf).2.1.indep = false := by
  unfold Transfer.parallel at h ⊢
  cases hfv : s.var x.v.name with
  | none => rw [hfv] at h; cases h
  | some fv =>
    rw [hfv] at h
    dsimp only at h ⊢
    cases hfr : handleFrame x.frame x.nb with
    | throw e => rw [hfr] at h; cases h
    | ub => rw [hfr] at h; cases h
    | ok fr =>
      rw [hfr] at h
      simp only [hl, Bool.false_eq_true, if_false] at h ⊢
      unfold Transfer.localMpi at h ⊢
      cases hp : x.v.prepareLocal x.nb x.frame x.k x.marks with
      | throw e => rw [hp] at h; cases h
      | ub => rw [hp] at h; cases h
      | ok p =>
        obtain ⟨reqs, stride, imap, t⟩ := p
        rw [hp] at h
        dsimp only at h ⊢
        cases hr : x.read with
        | true =>
          simp only [hr, if_true] at h ⊢
          cases hg : x.v.getRequestsMpi conv stride imap t fv s.numrecs reqs 0 buf with
          | ok b => rfl
          | throw e => rw [hg] at h; cases h
          | ub => rw [hg] at h; cases h
        | false =>
          simp only [hr, Bool.false_eq_true, if_false] at h ⊢
          cases hg : x.v.putRequestsMpi conv stride imap t buf reqs 0 fv with
          | ok b => rfl
          | throw e => rw [hg] at h; cases h
          | ub => rw [hg] at h; cases h

example : ((Transfer.mk exLocalVar 3 1 0 [-1, 8, -1, 9, 7, -1] true).parallel exConv { exParFile with indep := true }
    fun a => if 0 ≤ a ∧ a < 12 then some a else none).1 = .ok () := by decide +kernel

/-- **C97**, the full statement: after a transfer that raised an exception in both builds, the next transfer has the same outcome in
both builds. -/
def C97_statement : Prop :=
  ∀ (conv : Conv Int), conv.Faithful → ∀ (x y : Transfer), x.v.Registered → y.v.Registered → ∀ s : ParFile Int,
    s.Typed x.v → s.Typed y.v → s.indep = false → ∀ (buf buf' : Mem Int) (e : Err), x.serial s buf = .throw e →
      (y.parallel conv (x.parallel conv s buf).2.1 buf').1 = outcome (y.serial s buf')

/-- **C97** is false: a program reads a local field from a frame that was appended and not written yet, catches the exception
and writes a global field.  That works in the serial build and raises an exception in the parallel one. -/
theorem C97_false : ¬ C97_statement := by
  intro h
  have e : exReadMissing.serial exParFile (fun a => if 0 ≤ a ∧ a < 12 then some a else none) = .throw .fileIOError := by
    with_unfolding_all rfl
  have := h exConv exConv_faithful exReadMissing ⟨exStressVar, 3, 2, 0, [], false⟩ exLocalVar_registered exStressVar_registered
    exParFile exParFile_plastic exParFile_stress rfl (fun a => if 0 ≤ a ∧ a < 12 then some a else none)
    (fun a => if 0 ≤ a ∧ a < 72 then some a else none) _ e
  revert this
  decide +kernel

end Verif.Props
