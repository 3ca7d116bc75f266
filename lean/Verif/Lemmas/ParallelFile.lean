import Verif.Model.ParallelFile
import Verif.Lemmas.NetCDFLocal
import Verif.Spec.ParallelFile
/-
Lemmas about the parallel build of transfers.
-/
namespace Verif.NetCDF
open Verif Verif.Ccoord Verif.Layout Verif.Layout.FieldLayout Verif.RawMemory Verif.FileIO Verif.Props
open Verif.NetCDFAtt (NcType)
open Verif.Collection (ElemType)

variable {α : Type}

theorem prod_leadList (hidden : Bool) (hist : Option Nat) : (leadList hidden 1 1 hist).prod = 1 := by
  cases hist <;> cases hidden <;> simp [leadList]

theorem prod_subIdx {vname : String} {f : IoField} (hs : StorableShape vname f) :
    (subIdx f f.layout.nbSub).prod = f.layout.nbSub := by
  unfold subIdx
  split
  · rename_i h; simp [hs.sub_scalar h]
  · simp

theorem mpi_dataType {v : Var} (h : v.field.ty ≠ .complex) :
    ∃ t, mpiTypeOf v.dataType = .ok t ∧ ncTypeOf v.field.ty = .ok t.elements ∧ t.elements = v.dataType := by
  unfold Var.dataType
  cases ht : v.field.ty with
  | real => exact ⟨.double, rfl, rfl, rfl⟩
  | int => exact ⟨.int, rfl, rfl, rfl⟩
  | uint => exact ⟨.uint, rfl, rfl, rfl⟩
  | index => exact ⟨.longLong, rfl, rfl, rfl⟩
  | complex => exact absurd ht h

theorem cast_dataType {v : Var} (h : v.field.ty ≠ .complex) : castBytes v.dataType = .ok (elemBytes v.field.ty) := by
  unfold Var.dataType
  cases ht : v.field.ty <;> first | rfl | exact absurd ht h

theorem elemBytes_pos (t : ElemType) : 0 < elemBytes t := by cases t <;> decide

theorem count_global {v : Var} {vname : String} {f : IoField} {hidden : Bool} {hist : Option Nat}
    (hv : IsGlobalVar v vname f hidden hist) (hs : StorableShape vname f) (hg : OnGrid f)
    (hn : f.nbPixels = getSize f.layout.pixShape) {count : List Int} (hc : v.countGlobal = .ok count) :
    getSize count = v.bufcountGlobal := by
  rw [countGlobal_eq hv hs hg] at hc
  cases hc
  rw [Var.bufcountGlobal, hv.field, hn, getSize_eq_prod, getSize_eq_prod, FieldLayout.nbComp, getSize_eq_prod]
  simp only [List.prod_append, prod_leadList, prod_subIdx hs]
  ring

theorem count_local {v : Var} {vname : String} {f : IoField} {hist : Option Nat} {total : Int}
    (hv : IsLocalVar v vname f hist total) (hs : StorableShape vname f) : getSize (countOf f hist) = v.bufcountLocal := by
  rw [Var.bufcountLocal, hv.field, getSize_eq_prod, FieldLayout.nbComp, getSize_eq_prod, countOf]
  simp only [List.prod_append, prod_leadList, prod_subIdx hs]
  simp
  ring

/-- The file as the library shows it to a field of type `t`. -/
def FileVar.shownAs (conv : Conv α) (t : NcType) (fv : FileVar α) : FileVar α :=
  ⟨fv.shape, t, fun y => conv fv.ty t (fv.data y)⟩

theorem putVarmMpi_eq {conv : Conv α} {ty : ElemType} {fv : FileVar α} {start count stride imap : List Int} {buf : Mem α}
    {t : MpiType} (ht : ncTypeOf ty = .ok t.elements) :
    putVarmMpi conv ty fv start count stride imap buf (getSize count) t =
      (putVarm ⟨fv.shape, t.elements, fv.data⟩ start count stride imap (fun a => (buf a).map (conv t.elements fv.ty))).bind
        fun r => .ok { r with ty := fv.ty } := by
  unfold putVarmMpi putVarm
  cases checkArgs none fv.shape start count stride with
  | throw e => rfl
  | ub => rfl
  | ok u =>
    simp only [Res.ok_bind, ne_eq, not_true_eq_false, if_false, ht]
    by_cases hi : imap.length < count.length
    · rw [if_pos hi, if_pos hi]; rfl
    · rw [if_neg hi, if_neg hi]
      cases putLoop start stride imap (fun a => Option.map (conv t.elements fv.ty) (buf a)) (boxIndices count) fv.data <;> rfl

theorem getVarmMpi_eq {conv : Conv α} {ty : ElemType} {fv : FileVar α} {numrecs : Int} {start count stride imap : List Int}
    {buf : Mem α} {t : MpiType} (ht : ncTypeOf ty = .ok t.elements) :
    getVarmMpi conv ty fv numrecs start count stride imap buf (getSize count) t =
      getVarm (fv.shownAs conv t.elements) numrecs start count stride imap buf := by
  unfold getVarmMpi getVarm FileVar.shownAs
  simp only [ne_eq, not_true_eq_false, if_false, ht]

section
variable {v : Var} {vname : String} {f : IoField} {hidden : Bool} {hist : Option Nat}

theorem sameType_self (h : v.field.ty ≠ .complex) (sh : List (Option Int)) (d : List Int → α) :
    v.sameType ⟨sh, v.dataType, d⟩ = .ok () := by
  obtain ⟨t, -, h2, h3⟩ := mpi_dataType h
  rw [Var.sameType, if_pos (by rw [h2, h3])]

theorem writeGlobalMpi_eq (hv : IsGlobalVar v vname f hidden hist) (hs : StorableShape vname f) (hg : OnGrid f)
    (hn : f.nbPixels = getSize f.layout.pixShape) (conv : Conv α) (nb frame : Int) (k : Nat) (buf : Mem α) (fv : FileVar α) :
    v.writeGlobalMpi conv nb frame k buf fv =
      (v.writeGlobal nb frame k (fun a => (buf a).map (conv v.dataType fv.ty)) ⟨fv.shape, v.dataType, fv.data⟩).bind
        fun r => .ok { r with ty := fv.ty } := by
  have hty : v.field.ty ≠ .complex := by rw [hv.field]; exact hv.ty
  obtain ⟨t, h1, h2, h3⟩ := mpi_dataType hty
  unfold Var.writeGlobalMpi Var.writeGlobal
  cases handleFrame frame nb with
  | throw e => rfl
  | ub => rfl
  | ok fr =>
    simp only [Res.ok_bind]
    cases v.startGlobal fr k with
    | throw e => rfl
    | ub => rfl
    | ok start =>
      cases hc : v.countGlobal with
      | throw e => rfl
      | ub => rfl
      | ok count =>
        cases v.ncStride with
        | throw e => rfl
        | ub => rfl
        | ok stride =>
          cases v.imapGlobal with
          | throw e => rfl
          | ub => rfl
          | ok imap =>
            simp only [Res.ok_bind, h1, sameType_self hty]
            rw [← count_global hv hs hg hn hc, putVarmMpi_eq h2, h3]

theorem readGlobalMpi_eq (hv : IsGlobalVar v vname f hidden hist) (hs : StorableShape vname f) (hg : OnGrid f)
    (hn : f.nbPixels = getSize f.layout.pixShape) (conv : Conv α) (nb frame : Int) (k : Nat) (numrecs : Int) (fv : FileVar α)
    (buf : Mem α) :
    v.readGlobalMpi conv nb frame k numrecs fv buf = v.readGlobal nb frame k numrecs (fv.shownAs conv v.dataType) buf := by
  have hty : v.field.ty ≠ .complex := by rw [hv.field]; exact hv.ty
  obtain ⟨t, h1, h2, h3⟩ := mpi_dataType hty
  unfold Var.readGlobalMpi Var.readGlobal
  cases handleFrame frame nb with
  | throw e => rfl
  | ub => rfl
  | ok fr =>
    simp only [Res.ok_bind]
    cases v.startGlobal fr k with
    | throw e => rfl
    | ub => rfl
    | ok start =>
      cases hc : v.countGlobal with
      | throw e => rfl
      | ub => rfl
      | ok count =>
        cases v.ncStride with
        | throw e => rfl
        | ub => rfl
        | ok stride =>
          cases v.imapGlobal with
          | throw e => rfl
          | ub => rfl
          | ok imap =>
            simp only [Res.ok_bind, h1, FileVar.shownAs, sameType_self hty]
            rw [← count_global hv hs hg hn hc, getVarmMpi_eq h2, h3]
            rfl

end

/-! ### Local fields -/

section
variable {v : Var} {vname : String} {f : IoField} {hist : Option Nat} {total : Int}

theorem fromPtr_mul (ty : ElemType) (off : Int) (buf : Mem α) : fromPtr ty (elemBytes ty * off) buf = fun a => buf (off + a) := by
  funext a
  have := elemBytes_pos ty
  rw [fromPtr, if_pos (by simp), Int.mul_ediv_cancel_left _ (by omega)]

theorem behindPtr_mul (ty : ElemType) (off : Int) (buf : Mem α) :
    behindPtr ty (elemBytes ty * off) buf = fun a => buf (a - off) := by
  funext a
  have := elemBytes_pos ty
  rw [behindPtr, Int.mul_ediv_cancel_left _ (by omega)]

theorem putRequestsMpi_eq {conv : Conv α} {t : MpiType} (hty : v.field.ty ≠ .complex)
    (ht : ncTypeOf v.field.ty = .ok t.elements) (stride imap : List Int) (buf : Mem α) {reqs : List (List Int × List Int)}
    (hc : ∀ r ∈ reqs, getSize r.2 = v.bufcountLocal) (off : Int) (fv : FileVar α) :
    v.putRequestsMpi conv stride imap t buf reqs (elemBytes v.field.ty * off) fv =
      (Var.putRequests stride imap (fun a => (buf a).map (conv t.elements fv.ty)) reqs off
        ⟨fv.shape, t.elements, fv.data⟩).bind fun r => .ok { r with ty := fv.ty } := by
  induction reqs generalizing off fv with
  | nil => rfl
  | cons r reqs ih =>
    obtain ⟨start, count⟩ := r
    rw [Var.putRequestsMpi, Var.putRequests, fromPtr_mul, ← hc _ (List.mem_cons_self ..), putVarmMpi_eq ht]
    cases hp : putVarm ⟨fv.shape, t.elements, fv.data⟩ start count stride imap
        (fun a => (buf (off + a)).map (conv t.elements fv.ty)) with
    | throw e => rfl
    | ub => rfl
    | ok r =>
      have hr : r.ty = t.elements := by
        unfold putVarm at hp
        obtain ⟨-, -, hp⟩ := Res.bind_eq_ok.1 hp
        split at hp
        · cases hp
        · obtain ⟨d, -, hp⟩ := Res.bind_eq_ok.1 hp
          cases hp; rfl
      have : (Res.ok r).bind (fun r => Res.ok { r with ty := fv.ty }) = .ok ({ r with ty := fv.ty } : FileVar α) := rfl
      rw [this]
      simp only [Res.ok_bind, incrementBufPtr, cast_dataType hty, Res.pure_eq]
      rw [← mul_add, ih (fun r hr => hc r (List.mem_cons_of_mem _ hr))]
      obtain ⟨sh, ty, d⟩ := r
      cases hr
      rfl

theorem getRequestsMpi_eq {conv : Conv α} {t : MpiType} (hty : v.field.ty ≠ .complex)
    (ht : ncTypeOf v.field.ty = .ok t.elements) (stride imap : List Int) (fv : FileVar α) (numrecs : Int)
    {reqs : List (List Int × List Int)} (hc : ∀ r ∈ reqs, getSize r.2 = v.bufcountLocal) (off : Int) (buf : Mem α) :
    v.getRequestsMpi conv stride imap t fv numrecs reqs (elemBytes v.field.ty * off) buf =
      Var.getRequests stride imap (fv.shownAs conv t.elements) numrecs reqs off buf := by
  induction reqs generalizing off buf with
  | nil => rfl
  | cons r reqs ih =>
    obtain ⟨start, count⟩ := r
    rw [Var.getRequestsMpi, Var.getRequests, fromPtr_mul, ← hc _ (List.mem_cons_self ..), getVarmMpi_eq ht]
    cases getVarm (fv.shownAs conv t.elements) numrecs start count stride imap (fun a => buf (off + a)) with
    | throw e => rfl
    | ub => rfl
    | ok b =>
      simp only [Res.ok_bind, incrementBufPtr, cast_dataType hty, Res.pure_eq]
      rw [← mul_add, behindPtr_mul, ih (fun r hr => hc r (List.mem_cons_of_mem _ hr))]

theorem prepareLocal_facts (hv : IsLocalVar v vname f hist total) (hs : StorableShape vname f) {nb frame : Int} {k : Nat}
    {marks : List Int} {reqs : List (List Int × List Int)} {stride imap : List Int} {t : MpiType}
    (h : v.prepareLocal nb frame k marks = .ok (reqs, stride, imap, t)) :
    ncTypeOf v.field.ty = .ok t.elements ∧ t.elements = v.dataType ∧ ∀ r ∈ reqs, getSize r.2 = v.bufcountLocal := by
  have hty : v.field.ty ≠ .complex := by rw [hv.field]; exact hv.ty
  obtain ⟨t', h1, h2, h3⟩ := mpi_dataType hty
  unfold Var.prepareLocal at h
  obtain ⟨fr, -, h⟩ := Res.bind_eq_ok.1 h
  obtain ⟨starts, -, h⟩ := Res.bind_eq_ok.1 h
  obtain ⟨counts, hc, h⟩ := Res.bind_eq_ok.1 h
  obtain ⟨_, -, h⟩ := Res.bind_eq_ok.1 h
  obtain ⟨_, -, h⟩ := Res.bind_eq_ok.1 h
  obtain ⟨t'', ht, h⟩ := Res.bind_eq_ok.1 h
  rw [h1] at ht
  cases ht
  cases h
  refine ⟨h2, h3, fun r hr => ?_⟩
  rw [countLocal_eq hv hs] at hc
  cases hc
  have := (List.of_mem_zip hr).2
  obtain ⟨-, -, he⟩ := List.mem_map.1 this
  rw [← he, count_local hv hs]

/-- The serial write from the prepared requests. -/
theorem writeLocal_prepare (hv : IsLocalVar v vname f hist total) (nb frame : Int) (k : Nat) (marks : List Int) (buf : Mem α)
    {fv : FileVar α} (hfv : fv.ty = v.dataType) :
    v.writeLocal nb frame k marks buf fv =
      (v.prepareLocal nb frame k marks).bind fun p => Var.putRequests p.2.1 p.2.2.1 buf p.1 0 fv := by
  have hty : v.field.ty ≠ .complex := by rw [hv.field]; exact hv.ty
  obtain ⟨t, h1, h2, h3⟩ := mpi_dataType hty
  have hst : v.sameType fv = .ok () := by
    rw [Var.sameType, if_pos (by rw [h2, h3, hfv])]
  unfold Var.writeLocal Var.prepareLocal
  cases handleFrame frame nb with
  | throw e => rfl
  | ub => rfl
  | ok fr =>
    simp only [Res.ok_bind]
    cases v.startLocal fr k marks with
    | throw e => rfl
    | ub => rfl
    | ok starts =>
      simp only [Res.ok_bind]
      cases v.countLocal marks with
      | throw e => rfl
      | ub => rfl
      | ok counts =>
        simp only [Res.ok_bind]
        cases v.ncStride with
        | throw e => rfl
        | ub => rfl
        | ok stride =>
          simp only [Res.ok_bind]
          cases v.imapLocal with
          | throw e => rfl
          | ub => rfl
          | ok imap =>
            simp only [Res.ok_bind, h1, hst]
            rfl

theorem readLocal_prepare (hv : IsLocalVar v vname f hist total) (nb frame : Int) (k : Nat) (marks : List Int) (numrecs : Int)
    (buf : Mem α) {fv : FileVar α} (hfv : fv.ty = v.dataType) :
    v.readLocal nb frame k marks numrecs fv buf =
      (v.prepareLocal nb frame k marks).bind fun p => Var.getRequests p.2.1 p.2.2.1 fv numrecs p.1 0 buf := by
  have hty : v.field.ty ≠ .complex := by rw [hv.field]; exact hv.ty
  obtain ⟨t, h1, h2, h3⟩ := mpi_dataType hty
  have hst : v.sameType fv = .ok () := by
    rw [Var.sameType, if_pos (by rw [h2, h3, hfv])]
  unfold Var.readLocal Var.prepareLocal
  cases handleFrame frame nb with
  | throw e => rfl
  | ub => rfl
  | ok fr =>
    simp only [Res.ok_bind]
    cases v.startLocal fr k marks with
    | throw e => rfl
    | ub => rfl
    | ok starts =>
      simp only [Res.ok_bind]
      cases v.countLocal marks with
      | throw e => rfl
      | ub => rfl
      | ok counts =>
        simp only [Res.ok_bind]
        cases v.ncStride with
        | throw e => rfl
        | ub => rfl
        | ok stride =>
          simp only [Res.ok_bind]
          cases v.imapLocal with
          | throw e => rfl
          | ub => rfl
          | ok imap =>
            simp only [Res.ok_bind, h1, hst]
            rfl

/-- The requests of the parallel build against those of the serial build, for a variable of any type. -/
theorem putRequestsMpi_prepared (hv : IsLocalVar v vname f hist total) (hs : StorableShape vname f) (conv : Conv α)
    {nb frame : Int} {k : Nat} {marks : List Int} {reqs : List (List Int × List Int)} {stride imap : List Int} {t : MpiType}
    (h : v.prepareLocal nb frame k marks = .ok (reqs, stride, imap, t)) (buf : Mem α) (fv : FileVar α) :
    v.putRequestsMpi conv stride imap t buf reqs 0 fv =
      (v.writeLocal nb frame k marks (fun a => (buf a).map (conv v.dataType fv.ty)) ⟨fv.shape, v.dataType, fv.data⟩).bind
        fun r => .ok { r with ty := fv.ty } := by
  have hty : v.field.ty ≠ .complex := by rw [hv.field]; exact hv.ty
  obtain ⟨h2, h3, hc⟩ := prepareLocal_facts hv hs h
  have := putRequestsMpi_eq (conv := conv) hty h2 stride imap buf hc 0 fv
  rw [mul_zero] at this
  rw [this, writeLocal_prepare hv _ _ _ _ _ rfl, h, h3]
  rfl

theorem getRequestsMpi_prepared (hv : IsLocalVar v vname f hist total) (hs : StorableShape vname f) (conv : Conv α)
    {nb frame : Int} {k : Nat} {marks : List Int} {reqs : List (List Int × List Int)} {stride imap : List Int} {t : MpiType}
    (h : v.prepareLocal nb frame k marks = .ok (reqs, stride, imap, t)) (numrecs : Int) (buf : Mem α) (fv : FileVar α) :
    v.getRequestsMpi conv stride imap t fv numrecs reqs 0 buf =
      v.readLocal nb frame k marks numrecs (fv.shownAs conv v.dataType) buf := by
  have hty : v.field.ty ≠ .complex := by rw [hv.field]; exact hv.ty
  obtain ⟨h2, h3, hc⟩ := prepareLocal_facts hv hs h
  have := getRequestsMpi_eq (conv := conv) hty h2 stride imap fv numrecs hc 0 buf
  rw [mul_zero] at this
  rw [this, readLocal_prepare hv _ _ _ _ _ _ rfl, h, h3]
  rfl

end

/-! ### One transfer -/

theorem map_faithful {conv : Conv α} (hc : conv.Faithful) (t : NcType) (buf : Mem α) :
    (fun a => (buf a).map (conv t t)) = buf := by
  funext a
  have : conv t t = id := funext fun x => hc t x
  rw [this, Option.map_id]
  rfl

theorem shownAs_self {conv : Conv α} (hc : conv.Faithful) {fv : FileVar α} {t : NcType} (h : fv.ty = t) :
    fv.shownAs conv t = fv := by
  subst h
  simp only [FileVar.shownAs, hc fv.ty]

theorem bind_ty {r : Res (FileVar α)} {t : NcType} (h : ∀ x, r = .ok x → x.ty = t) :
    (r.bind fun x => .ok { x with ty := t }) = r := by
  cases r with
  | throw e => rfl
  | ub => rfl
  | ok x => have := h x rfl; subst this; rfl

theorem putVarm_ty {fv r : FileVar α} {start count stride imap : List Int} {buf : Mem α}
    (h : putVarm fv start count stride imap buf = .ok r) : r.ty = fv.ty := by
  unfold putVarm at h
  obtain ⟨_, -, h⟩ := Res.bind_eq_ok.1 h
  split at h
  · cases h
  · obtain ⟨d, -, h⟩ := Res.bind_eq_ok.1 h
    cases h; rfl

theorem putRequests_ty {stride imap : List Int} {buf : Mem α} {reqs : List (List Int × List Int)} {off : Int}
    {fv r : FileVar α} (h : Var.putRequests stride imap buf reqs off fv = .ok r) : r.ty = fv.ty := by
  induction reqs generalizing off fv with
  | nil => cases h; rfl
  | cons q reqs ih =>
    obtain ⟨start, count⟩ := q
    rw [Var.putRequests] at h
    obtain ⟨fv', h1, h⟩ := Res.bind_eq_ok.1 h
    rw [ih h, putVarm_ty h1]

theorem writeGlobal_ty {v : Var} {nb frame : Int} {k : Nat} {buf : Mem α} {fv r : FileVar α}
    (h : v.writeGlobal nb frame k buf fv = .ok r) : r.ty = fv.ty := by
  unfold Var.writeGlobal at h
  obtain ⟨_, -, h⟩ := Res.bind_eq_ok.1 h
  obtain ⟨_, -, h⟩ := Res.bind_eq_ok.1 h
  obtain ⟨_, -, h⟩ := Res.bind_eq_ok.1 h
  obtain ⟨_, -, h⟩ := Res.bind_eq_ok.1 h
  obtain ⟨_, -, h⟩ := Res.bind_eq_ok.1 h
  obtain ⟨_, -, h⟩ := Res.bind_eq_ok.1 h
  exact putVarm_ty h

theorem writeLocal_ty {v : Var} {nb frame : Int} {k : Nat} {marks : List Int} {buf : Mem α} {fv r : FileVar α}
    (h : v.writeLocal nb frame k marks buf fv = .ok r) : r.ty = fv.ty := by
  unfold Var.writeLocal at h
  obtain ⟨_, -, h⟩ := Res.bind_eq_ok.1 h
  obtain ⟨_, -, h⟩ := Res.bind_eq_ok.1 h
  obtain ⟨_, -, h⟩ := Res.bind_eq_ok.1 h
  obtain ⟨_, -, h⟩ := Res.bind_eq_ok.1 h
  obtain ⟨_, -, h⟩ := Res.bind_eq_ok.1 h
  obtain ⟨_, -, h⟩ := Res.bind_eq_ok.1 h
  exact putRequests_ty h

theorem writeGlobalMpi_same {v : Var} {vname : String} {f : IoField} {hidden : Bool} {hist : Option Nat}
    (hv : IsGlobalVar v vname f hidden hist) (hs : StorableShape vname f) (hg : OnGrid f)
    (hn : f.nbPixels = getSize f.layout.pixShape) {conv : Conv α} (hc : conv.Faithful) (nb frame : Int) (k : Nat) (buf : Mem α)
    {fv : FileVar α} (hfv : fv.ty = v.dataType) :
    v.writeGlobalMpi conv nb frame k buf fv = v.writeGlobal nb frame k buf fv := by
  rw [writeGlobalMpi_eq hv hs hg hn, ← hfv, map_faithful hc]
  exact bind_ty fun x hx => writeGlobal_ty hx

theorem readGlobalMpi_same {v : Var} {vname : String} {f : IoField} {hidden : Bool} {hist : Option Nat}
    (hv : IsGlobalVar v vname f hidden hist) (hs : StorableShape vname f) (hg : OnGrid f)
    (hn : f.nbPixels = getSize f.layout.pixShape) {conv : Conv α} (hc : conv.Faithful) (nb frame : Int) (k : Nat)
    (numrecs : Int) (buf : Mem α) {fv : FileVar α} (hfv : fv.ty = v.dataType) :
    v.readGlobalMpi conv nb frame k numrecs fv buf = v.readGlobal nb frame k numrecs fv buf := by
  rw [readGlobalMpi_eq hv hs hg hn, shownAs_self hc hfv]

/-- What a registered variable is. -/
theorem Var.Registered.cases {v : Var} (h : v.Registered) :
    (v.field.isGlobal = true ∧ ∃ vname f hidden hist, IsGlobalVar v vname f hidden hist ∧ StorableShape vname f ∧ OnGrid f ∧
      f.nbPixels = getSize f.layout.pixShape) ∨
    (v.field.isGlobal = false ∧ ∃ vname f hist total, IsLocalVar v vname f hist total ∧ StorableShape vname f) := by
  rcases h with ⟨vname, f, hidden, hist, grid, grid', hf, hh, hn, hreg⟩ | ⟨vname, f, n, hist, total, lname, marks, hf, ht, hreg⟩
  · obtain ⟨hv, hs, hg⟩ := registered hf hh hreg
    exact .inl ⟨by rw [hv.field]; exact hf.is_global, vname, f, hidden, hist, hv, hs, hg, hn⟩
  · obtain ⟨hv, hs⟩ := registered_local hf ht hreg
    exact .inr ⟨by rw [hv.field]; exact hf.is_local, vname, f, hist, total, hv, hs⟩

theorem parallel_fits {conv : Conv α} (hc : conv.Faithful) {x : Transfer} (hx : x.v.Registered) {s : ParFile α}
    (ht : s.Typed x.v) (hi : s.indep = false) (buf : Mem α) : Fits s buf (x.serial s buf) (x.parallel conv s buf) := by
  unfold Transfer.serial Transfer.parallel
  cases hv : s.var x.v.name with
  | none => exact ⟨rfl, fun _ _ h => (by cases h), fun _ => ⟨rfl, rfl, rfl⟩⟩
  | some fv =>
    have hfv := ht fv hv
    dsimp only
    cases hfr : handleFrame x.frame x.nb with
    | throw e => exact ⟨rfl, fun _ _ h => (by cases h), fun _ => ⟨rfl, rfl, rfl⟩⟩
    | ub => exact ⟨rfl, fun _ _ h => (by cases h), fun _ => ⟨rfl, rfl, rfl⟩⟩
    | ok fr =>
      simp only [Res.ok_bind]
      rcases hx.cases with ⟨hgl, vname, f, hidden, hist, hv, hs, hg, hn⟩ | ⟨hgl, vname, f, hist, total, hv, hs⟩
      · rw [hgl]
        unfold Transfer.globalMpi
        simp only [hi, if_true, Bool.false_eq_true, if_false, writeGlobalMpi_same hv hs hg hn hc _ _ _ _ hfv,
          readGlobalMpi_same hv hs hg hn hc _ _ _ _ _ hfv]
        cases hrd : x.read with
        | true =>
          simp only [if_true]
          cases x.v.readGlobal x.nb x.frame x.k s.numrecs fv buf with
          | throw e => exact ⟨rfl, fun _ _ h => (by cases h), fun _ => ⟨rfl, rfl, rfl⟩⟩
          | ub => exact ⟨rfl, fun _ _ h => (by cases h), fun _ => ⟨rfl, rfl, rfl⟩⟩
          | ok b => exact ⟨rfl, fun _ _ h => (by cases h; rfl), fun h => absurd rfl (h _)⟩
        | false =>
          simp only [Bool.false_eq_true, if_false]
          cases x.v.writeGlobal x.nb x.frame x.k buf fv with
          | throw e => exact ⟨rfl, fun _ _ h => (by cases h), fun _ => ⟨rfl, rfl, rfl⟩⟩
          | ub => exact ⟨rfl, fun _ _ h => (by cases h), fun _ => ⟨rfl, rfl, rfl⟩⟩
          | ok b => exact ⟨rfl, fun _ _ h => (by cases h; rfl), fun h => absurd rfl (h _)⟩
      · rw [hgl]
        unfold Transfer.localMpi
        have hw : ∀ p, x.v.prepareLocal x.nb x.frame x.k x.marks = .ok p →
            x.v.putRequestsMpi conv p.2.1 p.2.2.1 p.2.2.2 buf p.1 0 fv = x.v.writeLocal x.nb x.frame x.k x.marks buf fv := by
          rintro ⟨reqs, stride, imap, t⟩ h
          rw [putRequestsMpi_prepared hv hs conv h, ← hfv, map_faithful hc]
          exact bind_ty fun x hx => writeLocal_ty hx
        have hr : ∀ p, x.v.prepareLocal x.nb x.frame x.k x.marks = .ok p →
            x.v.getRequestsMpi conv p.2.1 p.2.2.1 p.2.2.2 fv s.numrecs p.1 0 buf =
              x.v.readLocal x.nb x.frame x.k x.marks s.numrecs fv buf := by
          rintro ⟨reqs, stride, imap, t⟩ h
          rw [getRequestsMpi_prepared hv hs conv h, shownAs_self hc hfv]
        have hwp := writeLocal_prepare hv x.nb x.frame x.k x.marks buf hfv
        have hrp := readLocal_prepare hv x.nb x.frame x.k x.marks s.numrecs buf hfv
        simp only [Bool.false_eq_true, if_false]
        cases hp : x.v.prepareLocal x.nb x.frame x.k x.marks with
        | throw e =>
          rw [hp] at hwp hrp
          rw [hwp, hrp]
          cases x.read <;> exact ⟨rfl, fun _ _ h => (by cases h), fun _ => ⟨rfl, rfl, rfl⟩⟩
        | ub =>
          rw [hp] at hwp hrp
          rw [hwp, hrp]
          cases x.read <;> exact ⟨rfl, fun _ _ h => (by cases h), fun _ => ⟨rfl, rfl, rfl⟩⟩
        | ok p =>
          have hw := hw p hp
          have hr := hr p hp
          obtain ⟨reqs, stride, imap, t⟩ := p
          dsimp only at hw hr ⊢
          rw [hw, hr]
          cases hrd : x.read with
          | true =>
            simp only [if_true]
            cases x.v.readLocal x.nb x.frame x.k x.marks s.numrecs fv buf with
            | throw e => exact ⟨rfl, fun _ _ h => (by cases h), fun _ => ⟨rfl, rfl, rfl⟩⟩
            | ub => exact ⟨rfl, fun _ _ h => (by cases h), fun _ => ⟨rfl, rfl, rfl⟩⟩
            | ok b =>
              refine ⟨rfl, fun _ _ h => ?_, fun h => absurd rfl (h _)⟩
              cases h
              rw [← hi]
          | false =>
            simp only [Bool.false_eq_true, if_false]
            cases x.v.writeLocal x.nb x.frame x.k x.marks buf fv with
            | throw e => exact ⟨rfl, fun _ _ h => (by cases h), fun _ => ⟨rfl, rfl, rfl⟩⟩
            | ub => exact ⟨rfl, fun _ _ h => (by cases h), fun _ => ⟨rfl, rfl, rfl⟩⟩
            | ok b =>
              refine ⟨rfl, fun _ _ h => ?_, fun h => absurd rfl (h _)⟩
              cases h
              rw [← hi]
              rfl

end Verif.NetCDF
