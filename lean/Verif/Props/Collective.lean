import Verif.Lemmas.CollectiveReg
import Verif.Props.FileRegister
import Verif.Props.NetCDFLocal
/-
C98: the processes make the same collective calls when they register field collections, and get the same outcomes.
-/
namespace Verif.Props
open Verif Verif.Ccoord Verif.Layout Verif.FileIO Verif.NetCDF Verif.RawMemory

/-! ### Registration -/

theorem ready_opened {mode : OpenMode} {dims : List Dim} {vars : List String} {numrecs : Int} {ops : List RegOp}
    (h : Placed ops) : ReadyFor (Reg.opened mode dims vars numrecs) ops :=
  ⟨h, fun c fs ps _ ids total off _ dom hd => by cases hd⟩

theorem opened_alike (mode : OpenMode) (dims : List Dim) (vars : List String) (numrecs : Int) :
    (Reg.opened mode dims vars numrecs).Alike (Reg.opened mode dims vars numrecs) :=
  ⟨rfl, rfl, .nil, rfl, rfl, .inl ⟨rfl, rfl⟩, rfl, rfl, rfl, rfl, rfl⟩

/-- **C98** All processes get the same outcome from each call, registered or refused, and agree on the names, the number of
frames and what they defined in the file. -/
theorem C98_outcomes {n : Nat} (mode : OpenMode) (dims : List Dim) (vars : List String) (numrecs : Int)
    {ops : Fin n → List RegOp} (ha : ∀ i j, List.Forall₂ RegOp.Alike (ops i) (ops j)) (hp : ∀ i, Placed (ops i)) (i j : Fin n) :
    let r := fun i => (Reg.opened mode dims vars numrecs).run (ops i)
    (r i).1 = (r j).1 ∧ (r i).2.names = (r j).2.names ∧ (r i).2.nbFrames = (r j).2.nbFrames ∧
      (r i).2.fileDims = (r j).2.fileDims ∧ (r i).2.fileVars = (r j).2.fileVars := by
  obtain ⟨h1, h2, -⟩ := run_sim (ha i j) (opened_alike mode dims vars numrecs) (ready_opened (hp i)) (ready_opened (hp j)) true
  exact ⟨h1, h2.names, h2.nbFrames, h2.fileDims, h2.fileVars⟩

/-- **C98** All processes make the same collective calls in the same order, also when calls are refused. -/
theorem C98_calls {n : Nat} (mode : OpenMode) (dims : List Dim) (vars : List String) (numrecs : Int)
    {ops : Fin n → List RegOp} (ha : ∀ i j, List.Forall₂ RegOp.Alike (ops i) (ops j)) (hp : ∀ i, Placed (ops i))
    (define : Bool) (i j : Fin n) :
    Reg.runCalls define (Reg.opened mode dims vars numrecs) (ops i) =
      Reg.runCalls define (Reg.opened mode dims vars numrecs) (ops j) :=
  (run_sim (ha i j) (opened_alike mode dims vars numrecs) (ready_opened (hp i)) (ready_opened (hp j)) define).2.2

/-- **C98** So no process waits for ever. -/
theorem C98_returns {n : Nat} (hn : 0 < n) (mode : OpenMode) (dims : List Dim) (vars : List String) (numrecs : Int)
    {ops : Fin n → List RegOp} (ha : ∀ i j, List.Forall₂ RegOp.Alike (ops i) (ops j)) (hp : ∀ i, Placed (ops i))
    (define : Bool) : AllReturn fun i => Reg.runCalls define (Reg.opened mode dims vars numrecs) (ops i) :=
  (meets_same hn).2 fun i j => C98_calls mode dims vars numrecs ha hp define i j

/-- **C98** Processes all come to their end exactly if they make the same calls; otherwise at least one comes to wait for
ever. -/
theorem C98_returns_iff {κ : Type} {n : Nat} (hn : 0 < n) (p : Fin n → List κ) :
    (AllReturn p ↔ ∀ i j, p i = p j) ∧ ((∃ i j, p i ≠ p j) → ∃ q, Meets p q ∧ Waits q) := by
  refine ⟨meets_same hn, fun ⟨i, j, h⟩ => waits_of_ne hn fun ha => h ((meets_same hn).1 ha i j)⟩

/-! ### The calls are those that the result shows -/

/-- A registration in a new file that succeeds: what it registers and what it defines. -/
theorem registered_new {s : Reg} {c : IoColl} {fs ps : List String} (define : Bool)
    (hm : s.mode = .write ∨ s.mode = .overwrite) (h : (s.register c fs ps).1 = .ok ()) :
    ∃ fs' ps', let s1 := (s.registerDomain c fs' ps').2
      (s.registerDomain c fs' ps').1 = .ok () ∧ s1.define.1 = .ok () ∧ s.register c fs ps = s1.define ∧
      s1.fileDims = s.fileDims ∧ s1.fileVars = s.fileVars ∧
      s.registerCalls define c fs ps = s.domainCalls c fs' ps' ++ ((if define then [] else [.redef]) ++ s1.defineCalls) ∧
      s.defineMode define c fs ps = false := by
  rw [register_eq] at h ⊢
  rw [Reg.registerCalls, Reg.defineMode]
  by_cases hi : c.initialised
  · rw [if_neg (by simpa using hi)] at h ⊢
    rw [if_neg (c := ¬ c.initialised = true) (by simpa using hi), if_neg (c := ¬ c.initialised = true) (by simpa using hi)]
    dsimp only at h ⊢
    refine ⟨resolve "REGISTER_ALL_FIELDS" (c.fields.map IoField.name) fs,
      resolve "REGISTER_ALL_STATE_FIELDS" (c.states.map StateGroup.pre) ps, ?_⟩
    obtain ⟨h1, h2⟩ := andThen_okc h
    have hf := registerDomain_file s c (resolve "REGISTER_ALL_FIELDS" (c.fields.map IoField.name) fs)
      (resolve "REGISTER_ALL_STATE_FIELDS" (c.states.map StateGroup.pre) ps)
    simp only [Reg.fileState, Prod.mk.injEq] at hf
    have hm' := hm
    rw [← hf.1] at hm'
    rw [h2, if_pos hm'] at h ⊢
    rw [thenCalls_ok h1, if_pos hm']
    refine ⟨h1, h, rfl, hf.2.1, hf.2.2.1, rfl, ?_⟩
    rw [h1]
    dsimp only
    rw [if_pos hm', h]
  · rw [if_pos (by simpa using hi)] at h
    cases h

/-- **C98** A registration in a new file defines each new dimension and variable with one call, then writes the attributes
of all variables of the file object, and ends with data mode. -/
theorem C98_defines {s : Reg} {c : IoColl} {fs ps : List String} (define : Bool) (hm : s.mode = .write ∨ s.mode = .overwrite)
    (h : (s.register c fs ps).1 = .ok ()) :
    let s' := (s.register c fs ps).2
    let calls := s.registerCalls define c fs ps
    s'.fileDims = s.fileDims ++ calls.filterMap CollCall.dim? ∧ s'.fileVars = s.fileVars ++ calls.filterMap CollCall.var? ∧
      s.defineMode define c fs ps = false ∧
      ∃ pre, calls = pre ++ defineAttsCalls s'.vars ++ [.enddef] ∧ ∀ v a, .putAtt v a ∉ pre := by
  obtain ⟨fs', ps', h1, h2, h3, h4, h5, h6, h7⟩ := registered_new define hm h
  obtain ⟨d1, d2, -, -, pre, d4, d5⟩ := define_calls h2
  have hs := domainCalls_sums s c fs' ps'
  obtain ⟨f1, f2⟩ := sums_filter hs
  dsimp only
  rw [h3, h6, d1, d2, h4, h5]
  have g1 : (if define then [] else [CollCall.redef]).filterMap CollCall.dim? = [] := by cases define <;> rfl
  have g2 : (if define then [] else [CollCall.redef]).filterMap CollCall.var? = [] := by cases define <;> rfl
  refine ⟨?_, ?_, h7, s.domainCalls c fs' ps' ++ ((if define then [] else [.redef]) ++ pre), ?_, ?_⟩
  · simp only [List.filterMap_append, f1, g1, List.nil_append]
  · simp only [List.filterMap_append, f2, g2, List.nil_append]
  · rw [d4]; simp only [List.append_assoc]
  · intro v a hx
    rcases List.mem_append.1 hx with hx | hx
    · exact absurd (hs _ hx) (by simp [CollCall.isSum])
    · rcases List.mem_append.1 hx with hx | hx
      · cases define <;> simp at hx
      · exact d5 v a hx

/-- **C98** The numbers of pixels of the processes are added up once for every variable that a local collection adds to
the visible ones. -/
theorem C98_sums {s : Reg} {c : IoColl} {fs ps : List String} (define : Bool) (hm : s.mode = .write ∨ s.mode = .overwrite)
    {ids : List Int} {total off : Int} (hd : c.domain = .isLocal ids total off) (h : (s.register c fs ps).1 = .ok ()) :
    (s.register c fs ps).2.names.length = s.names.length + (s.registerCalls define c fs ps).count .sum := by
  obtain ⟨fs', ps', h1, h2, h3, h4, h5, h6, h7⟩ := registered_new define hm h
  obtain ⟨-, -, -, d3, -⟩ := define_calls h2
  rw [h3, h6, define_names, List.count_append, List.count_append, List.count_eq_zero.2 d3]
  have g : (if define then [] else [CollCall.redef]).count .sum = 0 := by cases define <;> rfl
  rw [g]
  simp only [Reg.registerDomain, Reg.domainCalls, hd] at h1 ⊢
  exact registerLocal_count h1

/-! ### Reading a local field -/

variable {α : Type}

theorem readLocal_missing {v : Var} {vname : String} {f : IoField} {hist : Option Nat} {total n : Int} {lname : String}
    {marks0 : List Int} (hf : LocalField f n) (ht : 0 < total)
    (hreg : registerLocalVar vname f hist total lname marks0 = .ok v)
    {nb frame fr numrecs : Int} {k : Nat} (hfr : varFrame nb frame = .ok fr) (hn : numrecs ≤ fr) (marks : List Int)
    (buf : Mem α) {fv : FileVar α} (hsh : fv.form = v.form) :
    v.readLocal nb frame k marks numrecs fv buf =
      if Var.marked marks = [] then .ok buf else .throw .fileIOError := by
  obtain ⟨hv, hs⟩ := registered_local hf ht hreg
  obtain ⟨hh, h0⟩ := varFrame_handle hfr
  obtain ⟨st, su, h1, -⟩ := strides_iterUnit hs.order hs.sub_scalar (by rw [hf.shape, hf.strides]; rfl)
  obtain ⟨il, h5, -⟩ := imapLocal_eq hv h1
  rw [Var.readLocal, hh, Res.ok_bind, startLocal_eq hv hs h0, Res.ok_bind, countLocal_eq hv hs,
    Res.ok_bind, ncStrideLocal_eq hv hs, Res.ok_bind, h5, Res.ok_bind, sameType_ok hv.field hv.ty hsh, Res.ok_bind,
    zip_map_map]
  cases Var.marked marks with
  | nil => rfl
  | cons off rest =>
    rw [if_neg (by simp), List.map_cons, Var.getRequests, getVarm,
      show fv.shape = fileShape v.dims from congrArg Prod.fst hsh, fileShapeLocal_eq hv hs]
    have key : ∀ sh a b c, checkArgs (some numrecs) (none :: sh) (fr :: a) (1 :: b) (1 :: c) =
        .throw .fileIOError := by
      intro sh a b c
      simp only [checkArgs]
      rw [if_neg (by omega), if_pos (by omega)]
    have hc : ∀ sh a b c, checkArgs (some numrecs) (leadShape false hist ++ sh)
        (leadList false fr k hist ++ a) (leadList false 1 1 hist ++ b)
        (leadList false 1 ((hist.getD 0 : Nat) + 1) hist ++ c) = .throw .fileIOError := by
      intro sh a b c
      cases hist <;> exact key _ _ _ _
    rw [startOf, countOf, strideOf, hc]
    rfl

/-- The part of a process in the reading of a local field: its field, its variable, the entries of its pixels and its
memory. -/
structure ReaderPart (α : Type) where
  f : IoField
  v : Var
  marks : List Int
  buf : Mem α

/-- All processes registered the field, each with its own pixels, and the file has the variable. -/
structure ReaderPart.Ok (r : ReaderPart α) (vname : String) (hist : Option Nat) (total : Int) (fv : FileVar α) : Prop where
  field : ∃ n, LocalField r.f n
  total_pos : 0 < total
  registered : ∃ lname marks0, registerLocalVar vname r.f hist total lname marks0 = .ok r.v
  form : fv.form = r.v.form

/-- **C98** for the reading of local fields: the processes make the same calls, whatever frame they ask for. -/
def C98_statement : Prop :=
  ∀ (n : Nat) (r : Fin n → ReaderPart Int) (vname : String) (hist : Option Nat) (total nb frame fr numrecs : Int) (k : Nat)
    (fv : FileVar Int), 0 < n → (∀ i, (r i).Ok vname hist total fv) → varFrame nb frame = .ok fr → HistIdx k hist →
    AllReturn fun i => (r i).v.readLocalCalls nb frame k (r i).marks numrecs fv (r i).buf

/-- **C98** A frame that is not in the file: the processes come to their end exactly if all of them have pixels or none has.
The processes with pixels leave by an exception, the others wait for them in `ncmpi_end_indep_data`. -/
theorem C98_missing {n : Nat} (hn : 0 < n) {r : Fin n → ReaderPart α} {vname : String} {hist : Option Nat}
    {total nb frame fr numrecs : Int} {k : Nat} {fv : FileVar α} (hr : ∀ i, (r i).Ok vname hist total fv)
    (hfr : varFrame nb frame = .ok fr) (hnr : numrecs ≤ fr) :
    (AllReturn fun i => (r i).v.readLocalCalls nb frame k (r i).marks numrecs fv (r i).buf) ↔
      ((∀ i, Var.marked (r i).marks = []) ∨ ∀ i, Var.marked (r i).marks ≠ []) := by
  have e : ∀ i, (r i).v.readLocalCalls nb frame k (r i).marks numrecs fv (r i).buf =
      .beginIndep :: if Var.marked (r i).marks = [] then [.endIndep] else [] := by
    intro i
    obtain ⟨⟨m, hf⟩, ht, ⟨l, m0, hreg⟩, hsh⟩ := hr i
    rw [Var.readLocalCalls, (varFrame_handle hfr).1]
    dsimp only
    rw [readLocal_missing hf ht hreg hfr hnr _ _ hsh]
    by_cases h : Var.marked (r i).marks = [] <;> simp [h]
  rw [meets_same hn]
  constructor
  · intro h
    by_cases h0 : Var.marked (r ⟨0, hn⟩).marks = []
    · left
      intro i
      have := h i ⟨0, hn⟩
      rw [e, e, if_pos h0] at this
      by_contra hi
      rw [if_neg hi] at this
      cases this
    · right
      intro i hi
      have := h i ⟨0, hn⟩
      rw [e, e, if_neg h0, if_pos hi] at this
      cases this
  · rintro (h | h) i j
    · rw [e, e, if_pos (h i), if_pos (h j)]
    · rw [e, e, if_neg (h i), if_neg (h j)]

/-- **C98** (part) A frame in the file: all processes come to their end.  Missing: frames that were appended but not
written, see `C98_missing`; row-major fields with several values per pixel, see `C37_row_major`. -/
theorem C98_read_partial {n : Nat} (hn : 0 < n) {r : Fin n → ReaderPart α} {vname : String} {hist : Option Nat}
    {total nb frame fr numrecs : Int} {k : Nat} {fv : FileVar α} (hr : ∀ i, (r i).Ok vname hist total fv)
    (hfr : varFrame nb frame = .ok fr) (hk : HistIdx k hist) (hnr : fr < numrecs)
    (hcol : ∀ i, (r i).f.layout.order = .colMajor ∨ (r i).f.layout.nbDof = 1)
    (hlen : ∀ i, ((Var.marked (r i).marks).length : Int) ≤ (r i).f.layout.nbBuf)
    (ho : ∀ i, ∀ off ∈ Var.marked (r i).marks, 0 ≤ off ∧ off < total)
    (hb : ∀ i, ∃ val, Holds (r i).f (r i).buf val) :
    AllReturn fun i => (r i).v.readLocalCalls nb frame k (r i).marks numrecs fv (r i).buf := by
  have e : ∀ i, (r i).v.readLocalCalls nb frame k (r i).marks numrecs fv (r i).buf = [.beginIndep, .endIndep] := by
    intro i
    obtain ⟨⟨m, hf⟩, ht, ⟨l, m0, hreg⟩, hsh⟩ := hr i
    obtain ⟨hv, hs⟩ := registered_local hf ht hreg
    obtain ⟨val, hb⟩ := hb i
    obtain ⟨buf', -, h, -⟩ := readLocal_spec hv hs hf (hcol i) (marks := (r i).marks) (by have := hlen i; rwa [hf.nbBuf] at this)
      (ho i) hfr hk hnr hb hsh
    rw [Var.readLocalCalls, (varFrame_handle hfr).1]
    dsimp only
    rw [h]
  exact (meets_same hn).2 fun i j => by rw [e, e]

/-! ### The examples -/

theorem fin_two_cases (i : Fin 2) : i = 0 ∨ i = 1 := by omega

/-- The other process: pixels 0 and 1 of the first direction, and no pixel of the inclusion. -/
def exOther (name tag : String) (comps : List Int) (nbSub : Int) : IoField :=
  ⟨name, tag, ⟨.colMajor, comps, nbSub, [2, 3], [1, 2], 6⟩, 6, true, [4, 3], [0, 0], .real⟩

def exBulkOther : IoColl :=
  ⟨"", true, [exOther "stress" "quad" [2, 2] 2, exOther "damage, sub_field index 0" "pixel" [1] 1,
      exOther "damage, sub_field index 1" "pixel" [1] 1],
    [⟨"damage", 1, ["damage, sub_field index 0", "damage, sub_field index 1"], exOther "damage" "pixel" [1] 1⟩],
    .global [4, 3] [2, 3] [0, 0]⟩

def exInclOther : IoColl := ⟨"inclusion", true, [exLoc "plastic" "quad" [2] 2 0], [], .isLocal [] 10 10⟩

def exScalarsOther : IoColl := ⟨"", true, [exOther "scalar" "quad" [1] 2], [], .global [4, 3] [2, 3] [0, 0]⟩

/-- The program of both: the inclusion is registered twice, and a field that cannot be stored. -/
def exRegProgram (bulk incl scalars : IoColl) : List RegOp :=
  [.register bulk ["REGISTER_ALL_FIELDS"] ["REGISTER_ALL_STATE_FIELDS"], .register incl ["plastic"] [], .appendFrame,
    .register incl ["plastic"] [], .register scalars ["scalar"] []]

def exRegPrograms : Fin 2 → List RegOp
  | 0 => exRegProgram exBulkOther exInclOther exScalarsOther
  | 1 => exRegProgram exBulk exIncl exScalars

theorem exFields_alike (name tag : String) (comps : List Int) (nbSub : Int) (h : comps.length ≤ 2147483647) :
    (exOther name tag comps nbSub).Alike (exBlock name tag comps nbSub) ∧
    (exBlock name tag comps nbSub).Alike (exOther name tag comps nbSub) ∧
    (exOther name tag comps nbSub).Alike (exOther name tag comps nbSub) ∧
    (exBlock name tag comps nbSub).Alike (exBlock name tag comps nbSub) := by
  refine ⟨?_, ?_, ?_, ?_⟩ <;> exact ⟨rfl, rfl, rfl, rfl, rfl, rfl, rfl, rfl, rfl, rfl, .inl rfl, .inl rfl, h⟩

theorem exLoc_alike (n m : Int) : (exLoc "plastic" "quad" [2] 2 n).Alike (exLoc "plastic" "quad" [2] 2 m) :=
  ⟨rfl, rfl, rfl, rfl, rfl, rfl, rfl, rfl, rfl, rfl, .inl rfl, .inl rfl, by simp [exLoc]⟩

theorem exRegPrograms_alike (i j : Fin 2) : List.Forall₂ RegOp.Alike (exRegPrograms i) (exRegPrograms j) := by
  have h1 := exFields_alike "stress" "quad" [2, 2] 2 (by decide)
  have h2 := exFields_alike "damage, sub_field index 0" "pixel" [1] 1 (by decide)
  have h3 := exFields_alike "damage, sub_field index 1" "pixel" [1] 1 (by decide)
  have h4 := exFields_alike "damage" "pixel" [1] 1 (by decide)
  have h5 := exFields_alike "scalar" "quad" [1] 2 (by decide)
  have key : ∀ {b b' i i' s s' : IoColl}, b.Alike b' → i.Alike i' → s.Alike s' →
      List.Forall₂ RegOp.Alike (exRegProgram b i s) (exRegProgram b' i' s') := fun hb hi hs =>
    .cons (.register _ _ hb) (.cons (.register _ _ hi) (.cons .appendFrame (.cons (.register _ _ hi)
      (.cons (.register _ _ hs) .nil))))
  rcases fin_two_cases i with rfl | rfl <;> rcases fin_two_cases j with rfl | rfl
  · exact key ⟨rfl, rfl, .cons h1.2.2.1 (.cons h2.2.2.1 (.cons h3.2.2.1 .nil)), .cons ⟨rfl, rfl, rfl, h4.2.2.1⟩ .nil, .global rfl rfl⟩
      ⟨rfl, rfl, .cons (exLoc_alike ..) .nil, .nil, .isLocal⟩ ⟨rfl, rfl, .cons h5.2.2.1 .nil, .nil, .global rfl rfl⟩
  · exact key ⟨rfl, rfl, .cons h1.1 (.cons h2.1 (.cons h3.1 .nil)), .cons ⟨rfl, rfl, rfl, h4.1⟩ .nil, .global rfl rfl⟩
      ⟨rfl, rfl, .cons (exLoc_alike ..) .nil, .nil, .isLocal⟩ ⟨rfl, rfl, .cons h5.1 .nil, .nil, .global rfl rfl⟩
  · exact key ⟨rfl, rfl, .cons h1.2.1 (.cons h2.2.1 (.cons h3.2.1 .nil)), .cons ⟨rfl, rfl, rfl, h4.2.1⟩ .nil, .global rfl rfl⟩
      ⟨rfl, rfl, .cons (exLoc_alike ..) .nil, .nil, .isLocal⟩ ⟨rfl, rfl, .cons h5.2.1 .nil, .nil, .global rfl rfl⟩
  · exact key ⟨rfl, rfl, .cons h1.2.2.2 (.cons h2.2.2.2 (.cons h3.2.2.2 .nil)), .cons ⟨rfl, rfl, rfl, h4.2.2.2⟩ .nil, .global rfl rfl⟩
      ⟨rfl, rfl, .cons (exLoc_alike ..) .nil, .nil, .isLocal⟩ ⟨rfl, rfl, .cons h5.2.2.2 .nil, .nil, .global rfl rfl⟩

theorem exRegProgram_placed {b c d : IoColl} {sh loc ids : List Int} {total off : Int} (hb : b.domain = .global [4, 3] sh loc)
    (hc : c.domain = .isLocal ids total off) (hd : d.domain = .global [4, 3] sh loc)
    (h : ∀ id ∈ ids, 0 ≤ id ∧ id < getSize sh) : Placed (exRegProgram b c d) := by
  intro c1 fs ps c2 fs' ps' ids' total' off' nb sh' loc' h1 h2 e1 e2
  simp only [exRegProgram, List.mem_cons, RegOp.register.injEq, List.not_mem_nil, or_false, reduceCtorEq, false_or] at h1 h2
  rcases h1 with ⟨rfl, -⟩ | ⟨rfl, -⟩ | ⟨rfl, -⟩ | ⟨rfl, -⟩
  · rw [hb] at e1; cases e1
  · rw [hc] at e1; cases e1
    rcases h2 with ⟨rfl, -⟩ | ⟨rfl, -⟩ | ⟨rfl, -⟩ | ⟨rfl, -⟩
    · rw [hb] at e2; cases e2; exact h
    · rw [hc] at e2; cases e2
    · rw [hc] at e2; cases e2
    · rw [hd] at e2; cases e2; exact h
  · rw [hc] at e1; cases e1
    rcases h2 with ⟨rfl, -⟩ | ⟨rfl, -⟩ | ⟨rfl, -⟩ | ⟨rfl, -⟩
    · rw [hb] at e2; cases e2; exact h
    · rw [hc] at e2; cases e2
    · rw [hc] at e2; cases e2
    · rw [hd] at e2; cases e2; exact h
  · rw [hd] at e1; cases e1

theorem exRegPrograms_placed (i : Fin 2) : Placed (exRegPrograms i) := by
  rcases fin_two_cases i with rfl | rfl
  · exact exRegProgram_placed rfl rfl rfl (by decide)
  · exact exRegProgram_placed rfl rfl rfl (by decide)

/-- The theorems on registration apply to two processes, one of them without pixels of the inclusion; the last two calls
are refused on both. -/
example : (∀ i j, List.Forall₂ RegOp.Alike (exRegPrograms i) (exRegPrograms j)) ∧ (∀ i, Placed (exRegPrograms i)) ∧
    ∀ i, ((Reg.created .write).run (exRegPrograms i)).1 =
      [.ok (), .ok (), .ok (), .throw .fieldCollectionError, .throw .fileIOError] :=
  ⟨exRegPrograms_alike, exRegPrograms_placed, by decide +kernel⟩

/-- The calls of both processes: 35, with one addition for the field `plastic`. -/
example : AllReturn (fun i => Reg.runCalls true (Reg.created .write) (exRegPrograms i)) ∧
    ∀ i, (Reg.runCalls true (Reg.created .write) (exRegPrograms i)).count .sum = 1 ∧
      (Reg.runCalls true (Reg.created .write) (exRegPrograms i)).count .enddef = 2 ∧
      (Reg.runCalls true (Reg.created .write) (exRegPrograms i)).filterMap CollCall.var? =
        ["damage", "stress", "inclusion", "plastic"] :=
  ⟨C98_returns (by decide) .write [] [] 0 exRegPrograms_alike exRegPrograms_placed true, by decide +kernel⟩

/-- The hypotheses of `C98_defines` and `C98_sums` are met by the second registration. -/
example : let s := ((Reg.created .write).register exBulk ["REGISTER_ALL_FIELDS"] ["REGISTER_ALL_STATE_FIELDS"]).2
    (s.mode = .write ∨ s.mode = .overwrite) ∧ (s.register exIncl ["plastic"] []).1 = .ok () ∧
      (s.registerCalls false exIncl ["plastic"] []).filterMap CollCall.var? = ["inclusion", "plastic"] :=
  ⟨by decide +kernel, by decide +kernel, by decide +kernel⟩

/-- Without the agreement on the name of a field the processes wait: one defines a variable, the other does not. -/
example : ∃ q, Meets (fun i : Fin 2 => (Reg.created .write).registerCalls true (if i = 0 then exBulk else exBulk')
    (if i = 0 then ["damage"] else ["stress"]) []) q ∧ Waits q :=
  (C98_returns_iff (by decide) _).2 ⟨0, 1, by decide +kernel⟩

/-- A process with three pixels of the inclusion. -/
def exReaderA : ReaderPart Int := ⟨exLocalField, exLocalVar, [-1, 8, -1, 9, 7, -1],
  fun a => if 0 ≤ a ∧ a < 12 then some a else none⟩

def exEmptyField : IoField := exLoc "plastic" "quad" [2] 2 0

/-- A process without pixels of the inclusion. -/
def exReaderB : ReaderPart Int := ⟨exEmptyField,
  ⟨"plastic", exEmptyField, none,
    [⟨"frame", 0⟩, ⟨"tensor_dim__plastic-0", 2⟩, ⟨"subpt__quad-2", 2⟩, ⟨"pts__plastic", 10⟩], false, "inclusion"⟩,
  [-1, -1, -1, -1, -1, -1], fun _ => none⟩

def exReaders : Fin 2 → ReaderPart Int
  | 0 => exReaderA
  | 1 => exReaderB

theorem exReaders_ok (i : Fin 2) : (exReaders i).Ok "plastic" none 10 ⟨fileShape exLocalVar.dims, .double, fun _ => 0⟩ := by
  rcases fin_two_cases i with rfl | rfl
  · exact ⟨⟨3, exLocalField_field⟩, by decide, ⟨_, _, exLocalField_registered⟩, rfl⟩
  · exact ⟨⟨0, exLoc_field (by decide) (by decide) (by decide) (by decide)⟩, by decide,
      ⟨"inclusion", [-1, -1, -1, -1, -1, -1], by decide +kernel⟩, rfl⟩

/-- **C98** does not hold for the reading of local fields: after `append_frame` and before anything is written, one process
raises an error and the other waits for ever. -/
theorem C98_false : ¬ C98_statement := by
  intro h
  have h1 := h 2 exReaders "plastic" none 10 3 2 2 2 0 ⟨fileShape exLocalVar.dims, .double, fun _ => 0⟩ (by decide)
    exReaders_ok (by decide) rfl
  rcases (C98_missing (fr := 2) (by decide) exReaders_ok (by decide) (by decide)).1 h1 with h2 | h2
  · exact absurd (h2 0) (by decide)
  · exact absurd (h2 1) (by decide)

/-- What the two processes are left with: the first has come to its end. -/
theorem C98_waits : ∃ q : Fin 2 → List CollCall, Meets (fun i => (exReaders i).v.readLocalCalls 3 2 0 (exReaders i).marks 2
      ⟨fileShape exLocalVar.dims, .double, fun _ => 0⟩ (exReaders i).buf) q ∧
    Waits q ∧ q 0 = [] ∧ q 1 = [.endIndep] := by
  have e0 : (exReaders 0).v.readLocalCalls 3 2 0 (exReaders 0).marks 2
      ⟨fileShape exLocalVar.dims, .double, fun _ => 0⟩ (exReaders 0).buf = [.beginIndep] := by decide +kernel
  have e1 : (exReaders 1).v.readLocalCalls 3 2 0 (exReaders 1).marks 2
      ⟨fileShape exLocalVar.dims, .double, fun _ => 0⟩ (exReaders 1).buf = [.beginIndep, .endIndep] := by decide +kernel
  refine ⟨_, .head ⟨.beginIndep, ?_, rfl⟩ .refl, ⟨⟨1, ?_⟩, ?_⟩, ?_, ?_⟩
  · intro i
    rcases fin_two_cases i with rfl | rfl
    · exact ⟨[], e0⟩
    · exact ⟨[.endIndep], e1⟩
  · show List.tail _ ≠ []
    beta_reduce
    rw [e1]; simp
  · rintro q ⟨c, hc, -⟩
    obtain ⟨rest, h⟩ := hc 0
    beta_reduce at h
    rw [e0] at h
    cases h
  · show List.tail _ = []
    beta_reduce
    rw [e0]; rfl
  · show List.tail _ = _
    beta_reduce
    rw [e1]; rfl

/-- The hypotheses of `C98_read_partial` are met by the two processes and frame 1 of 2. -/
example : (∀ i, (exReaders i).Ok "plastic" none 10 ⟨fileShape exLocalVar.dims, .double, fun _ => 0⟩) ∧
    varFrame 2 (-1) = .ok 1 ∧
    (∀ i, ((Var.marked (exReaders i).marks).length : Int) ≤ (exReaders i).f.layout.nbBuf) ∧
    ∀ i, ∃ val, Holds (exReaders i).f (exReaders i).buf val := by
  refine ⟨exReaders_ok, by decide, by decide, fun i => ?_⟩
  rcases fin_two_cases i with rfl | rfl
  · exact ⟨_, exLocalField_holds⟩
  · refine ⟨fun _ _ _ => 0, [1, 2, 4], by decide, ?_⟩
    intro cc s g hin
    obtain ⟨-, -, -, i, h0, h1, -⟩ := (local_inField (n := 0)
      (exLoc_field (by decide) (by decide) (by decide) (by decide))).1 hin
    omega

end Verif.Props
