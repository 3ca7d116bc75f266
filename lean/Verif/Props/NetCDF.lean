import Verif.Lemmas.NetCDF
/-
Properties of writing and reading fields through NetCDF files: C35 and C36.
-/
namespace Verif.Props
open Verif Verif.Ccoord Verif.Layout Verif.Layout.FieldLayout Verif.RawMemory Verif.FileIO Verif.NetCDF

variable {α : Type}

/-! ## C35 -/

theorem leadPos_eq (hidden : Bool) (frame : Int) (k : Nat) (hist : Option Nat) :
    leadPos hidden frame k hist = leadList hidden frame k hist := by cases hist <;> rfl

theorem filePos_congr {f f' : IoField} (h : SameField f f') (lead cc : List Int) (s : Int)
    (g : List Int) : filePos f lead cc s g = filePos f' lead cc s g := by
  rw [filePos, filePos, FieldLayout.nbComp, FieldLayout.nbComp, h.comps]

theorem form_congr {v v' : Var} {vname vname' : String} {f f' : IoField} {hidden : Bool} {hist : Option Nat}
    (hv : IsGlobalVar v vname f hidden hist) (hs : StorableShape vname f) (hg : OnGrid f)
    (hv' : IsGlobalVar v' vname' f' hidden hist) (hs' : StorableShape vname' f') (hg' : OnGrid f')
    (h : SameField f f') : v.form = v'.form := by
  rw [Var.form, Var.form, fileShape_eq hv hs hg, fileShape_eq hv' hs' hg', h.comps, h.domain, subIdx, subIdx,
    FieldLayout.nbComp, FieldLayout.nbComp, h.comps, h.sub, Var.dataType, Var.dataType, hv.field, hv'.field, h.ty]

/-- A subdomain of a 4 x 3 grid, the left two columns, with a column-major field. -/
def exLeft : IoField :=
  ⟨"stress", "quad", ⟨.colMajor, [2, 2], 3, [2, 3], [1, 2], 6⟩, 6, true, [4, 3], [0, 0], .real⟩

/-- The rest of the grid, with a row-major field. -/
def exRight : IoField :=
  ⟨"stress", "quad", ⟨.rowMajor, [2, 2], 3, [2, 3], [1, 2], 6⟩, 6, true, [4, 3], [2, 0], .real⟩

/-- The whole grid, row-major storage, pixels with row-major strides. -/
def exWhole : IoField :=
  ⟨"stress", "quad", ⟨.rowMajor, [2, 2], 3, [4, 3], [3, 1], 12⟩, 12, true, [4, 3], [0, 0], .real⟩

theorem exLeft_global : GlobalField exLeft :=
  ⟨by decide, by decide, by decide, by decide, rfl, by decide, by decide, addressing_acc [2, 3]⟩

theorem exRight_global : GlobalField exRight :=
  ⟨by decide, by decide, by decide, by decide, rfl, by decide, by decide, addressing_acc [2, 3]⟩

theorem exWhole_global : GlobalField exWhole :=
  ⟨by decide, by decide, by decide, by decide, rfl, by decide, by decide, addressing_acc_reverse [4, 3]⟩

/-- The dimensions of the example in the file. -/
def exDims : List Dim :=
  [⟨"frame", 0⟩, ⟨"tensor_dim__stress-0", 2⟩, ⟨"tensor_dim__stress-1", 2⟩, ⟨"subpt__quad-3", 3⟩,
    ⟨"nx", 4⟩, ⟨"ny", 3⟩]

theorem exLeft_registered : registerGlobalVar "stress" exLeft false none [0, 0, 0] =
    .ok (⟨"stress", exLeft, none, exDims, false, ""⟩, [4, 3, 0]) := by decide +kernel
theorem exRight_registered : registerGlobalVar "stress" exRight false none [0, 0, 0] =
    .ok (⟨"stress", exRight, none, exDims, false, ""⟩, [4, 3, 0]) := by decide +kernel
theorem exWhole_registered : registerGlobalVar "stress" exWhole false none [0, 0, 0] =
    .ok (⟨"stress", exWhole, none, exDims, false, ""⟩, [4, 3, 0]) := by decide +kernel

/-- **C35** Writing a registered field (or entry `k` of a state field) into a frame puts the value of
every component, sub-point and pixel at its place: frame, component, sub-point, global coordinates
of the pixel.  No other value of the variable changes. -/
theorem C35_write {v : Var} {vname : String} {f : IoField} {hidden : Bool} {hist : Option Nat} {grid grid' : List Int}
    (hf : GlobalField f) (hh : hidden = true → f.layout.nbSub = 1)
    (hreg : registerGlobalVar vname f hidden hist grid = .ok (v, grid'))
    {nb frame fr : Int} {k : Nat} (hfr : varFrame nb frame = .ok fr) (hk : HistIdx k hist)
    {buf : Mem α} {val : List Int → Int → List Int → α} (hb : Holds f buf val)
    {fv : FileVar α} (hsh : fv.form = v.form) :
    ∃ fv', v.writeGlobal nb frame k buf fv = .ok fv' ∧ fv'.form = fv.form ∧
      (∀ cc s g, InField f cc s g → fv'.data (filePos f (leadPos hidden fr k hist) cc s g) = val cc s g) ∧
      ∀ y, (∀ cc s g, InField f cc s g → y ≠ filePos f (leadPos hidden fr k hist) cc s g) →
        fv'.data y = fv.data y := by
  obtain ⟨hv, hs, hg⟩ := registered hf hh hreg
  simp only [leadPos_eq]
  exact writeGlobal_spec hv hs hg hfr hk hb hsh

/-- **C35** Reading a frame that exists in the file gives every element of the field the value at its
place in the file, and leaves the rest of the memory as it is. -/
theorem C35_read {v : Var} {vname : String} {f : IoField} {hidden : Bool} {hist : Option Nat} {grid grid' : List Int}
    (hf : GlobalField f) (hh : hidden = true → f.layout.nbSub = 1)
    (hreg : registerGlobalVar vname f hidden hist grid = .ok (v, grid'))
    {nb frame fr numrecs : Int} {k : Nat} (hfr : varFrame nb frame = .ok fr) (hk : HistIdx k hist)
    (hn : fr < numrecs) {buf : Mem α} {val : List Int → Int → List Int → α} (hb : Holds f buf val)
    {fv : FileVar α} (hsh : fv.form = v.form) :
    ∃ buf', v.readGlobal nb frame k numrecs fv buf = .ok buf' ∧
      Holds f buf' (fun cc s g => fv.data (filePos f (leadPos hidden fr k hist) cc s g)) ∧
      SameOutside f buf buf' := by
  obtain ⟨hv, hs, hg⟩ := registered hf hh hreg
  simp only [leadPos_eq]
  exact readGlobal_spec hv hs hg hfr hk hn hb hsh

/-- **C35** What was written is what is read, also into a field with another storage order or on
another part of the domain: after writing `f` into a frame, reading that frame into `f'` gives every
element that both have the value written. -/
theorem C35_round_trip {v v' : Var} {vname : String} {f f' : IoField} {hidden : Bool} {hist : Option Nat}
    {grid grid' grid2 grid2' : List Int} (hf : GlobalField f) (hf' : GlobalField f')
    (hh : hidden = true → f.layout.nbSub = 1) (hh' : hidden = true → f'.layout.nbSub = 1)
    (hreg : registerGlobalVar vname f hidden hist grid = .ok (v, grid'))
    (hreg' : registerGlobalVar vname f' hidden hist grid2 = .ok (v', grid2')) (hsame : SameField f f')
    {nb nb' frame frame' fr numrecs : Int} {k : Nat} (hfr : varFrame nb frame = .ok fr)
    (hfr' : varFrame nb' frame' = .ok fr) (hk : HistIdx k hist) (hn : fr < numrecs)
    {buf buf' : Mem α} {val val' : List Int → Int → List Int → α} (hb : Holds f buf val)
    (hb' : Holds f' buf' val') {fv : FileVar α} (hsh : fv.form = v.form) :
    ∃ fv' buf'' val'', v.writeGlobal nb frame k buf fv = .ok fv' ∧
      v'.readGlobal nb' frame' k numrecs fv' buf' = .ok buf'' ∧ Holds f' buf'' val'' ∧
      ∀ cc s g, InField f cc s g → InField f' cc s g → val'' cc s g = val cc s g := by
  obtain ⟨hv, hs, hg⟩ := registered hf hh hreg
  obtain ⟨hv', hs', hg'⟩ := registered hf' hh' hreg'
  obtain ⟨fv', h1, h2, h3, h4⟩ := C35_write hf hh hreg hfr hk hb hsh
  obtain ⟨buf'', h5, h6, -⟩ := C35_read hf' hh' hreg' hfr' hk hn hb'
    (h2.trans (hsh.trans (form_congr hv hs hg hv' hs' hg' hsame)))
  refine ⟨fv', buf'', _, h1, h5, h6, ?_⟩
  intro cc s g hin hin'
  exact (congrArg fv'.data (filePos_congr hsame _ cc s g).symm).trans (h3 cc s g hin)

/-- The hypotheses are met by a column-major part written and the whole, row-major field read. -/
example : GlobalField exLeft ∧ GlobalField exWhole ∧ SameField exLeft exWhole ∧
    (∃ v g, registerGlobalVar "stress" exLeft false none [0, 0, 0] = .ok (v, g)) ∧
    (∃ v g, registerGlobalVar "stress" exWhole false none [4, 3, 0] = .ok (v, g)) ∧
    varFrame 3 (-1) = .ok 2 ∧ HistIdx 0 none ∧
    Holds exLeft (fun a => if 0 ≤ a ∧ a < 72 then some a else none)
      (fun cc s g => dot [1, 2, 4, 12, 24] (cc ++ s :: relCoord g [0, 0])) := by
  refine ⟨exLeft_global, exWhole_global, ⟨rfl, rfl, rfl, rfl⟩, ⟨_, _, exLeft_registered⟩,
    ⟨⟨"stress", exWhole, none, exDims, false, ""⟩, [4, 3, 0], by decide +kernel⟩, by decide, rfl,
    [1, 2, 4, 12, 24], by decide, ?_⟩
  intro cc s g hin
  obtain ⟨s', h1, h2, h3, -⟩ := C18_sub_pt_strides exLeft.layout (by decide) (addressing_acc [2, 3])
  have h1' : s' = [1, 2, 4, 12, 24] := by
    have : exLeft.layout.strides .subPt 1 = .ok [1, 2, 4, 12, 24] := by decide
    rw [this] at h1
    exact (Res.ok.inj h1).symm
  subst h1'
  have hbox : InBox (exLeft.layout.shape .subPt) (cc ++ s :: relCoord g exLeft.loc) := by
    rw [h2]
    exact inBox_append.2 ⟨_, _, rfl, hin.1, hin.2.1, hin.2.2.1,
      ((inBoxAt_iff_rel (by decide)).1 hin.2.2.2).2⟩
  have := h3.bounds _ hbox
  exact if_pos ⟨this.1, lt_of_lt_of_le this.2 (by decide)⟩

/-- **C35** Writing into a frame does not change what any process reads from other frames, or from
other entries of the history of a state field. -/
theorem C35_other_frames {v : Var} {vname : String} {f f' : IoField} {hist : Option Nat}
    {grid grid' : List Int} (hf : GlobalField f)
    (hreg : registerGlobalVar vname f false hist grid = .ok (v, grid'))
    {nb frame fr : Int} {k : Nat} (hfr : varFrame nb frame = .ok fr) (hk : HistIdx k hist)
    {buf : Mem α} {val : List Int → Int → List Int → α} (hb : Holds f buf val)
    {fv fv' : FileVar α} (hsh : fv.form = v.form)
    (hw : v.writeGlobal nb frame k buf fv = .ok fv') {fr2 : Int} {k2 : Nat} (hk2 : HistIdx k2 hist)
    (hne : fr2 ≠ fr ∨ k2 ≠ k) (cc : List Int) (s : Int) (g : List Int) :
    fv'.data (filePos f' (leadPos false fr2 k2 hist) cc s g) =
      fv.data (filePos f' (leadPos false fr2 k2 hist) cc s g) := by
  obtain ⟨fv2, h1, -, -, h4⟩ := C35_write hf (by simp) hreg hfr hk hb hsh
  rw [hw] at h1
  cases h1
  refine h4 _ fun cc' s' g' _ he => ?_
  cases hist with
  | none =>
    simp only [HistIdx] at hk hk2
    simp only [filePos, leadPos, Bool.false_eq_true, if_false, List.singleton_append, List.cons.injEq] at he
    omega
  | some m =>
    simp only [filePos, leadPos, List.cons_append, List.cons.injEq, Nat.cast_inj] at he
    omega

/-- Reading a frame that is not in the file (appended, but nothing written yet) raises an error. -/
theorem C35_read_missing {v : Var} {vname : String} {f : IoField} {hist : Option Nat}
    {grid grid' : List Int} (hf : GlobalField f)
    (hreg : registerGlobalVar vname f false hist grid = .ok (v, grid'))
    {nb frame fr numrecs : Int} {k : Nat} (hfr : varFrame nb frame = .ok fr)
    (hn : numrecs ≤ fr) (buf : Mem α) {fv : FileVar α} (hsh : fv.form = v.form) :
    v.readGlobal nb frame k numrecs fv buf = .throw .fileIOError := by
  obtain ⟨hv, hs, hg⟩ := registered hf (by simp) hreg
  obtain ⟨il, st, su, h1, h2, h3, h4, -, h5⟩ := write_args hv hs hg k hfr buf fv hsh
  have h0 := varFrame_nonneg hfr
  have key : ∀ sh a b c, checkArgs (some numrecs) (none :: sh) (fr :: a) (1 :: b) (1 :: c) =
      .throw .fileIOError := by
    intro sh a b c
    simp only [checkArgs]
    rw [if_neg (by omega), if_pos (by omega)]
  have hc : ∀ sh a b c, checkArgs (some numrecs) (leadShape false hist ++ sh)
      (leadList false fr k hist ++ a) (leadList false 1 1 hist ++ b)
      (leadList false 1 ((hist.getD 0 : Nat) + 1) hist ++ c) = .throw .fileIOError := by
    intro sh a b c
    cases hist <;> exact key _ _ _ _
  rw [h5, getVarm, show fv.shape = fileShape v.dims from congrArg Prod.fst hsh, fileShape_eq hv hs hg, hc]
  rfl

/-- **C35** Which fields can be registered: exactly those with clean names that are not complex and
not scalars on several sub-points (in up to three dimensions, on the domain of the file).  All others raise an
error at registration; they are never stored wrongly. -/
theorem C35_registrable (vname : String) (f : IoField) (hist : Option Nat) (grid : List Int)
    (hf : GlobalField f) (hdim : f.nbDomain.length ≤ 3) (hgl : grid.length = 3)
    (hgrid : ∀ p ∈ List.zip grid f.nbDomain, p.1 = 0 ∨ p.1 = p.2) :
    (∃ v g, registerGlobalVar vname f false hist grid = .ok (v, g)) ↔
      f.ty ≠ .complex ∧ (f.layout.nbComp = 1 → f.layout.nbSub = 1) ∧ (f.layout.comps ≠ [] → Clean vname) ∧
        (f.layout.nbComp ≠ 1 → Clean f.tag) := by
  constructor
  · rintro ⟨v, g, h⟩
    obtain ⟨hv, hs, -⟩ := registered hf (by simp) h
    exact ⟨hv.ty, hs.sub_scalar, hs.clean_name, hs.clean_tag⟩
  · rintro ⟨h0, h1, h2, h3⟩
    have hs : StorableShape vname f := ⟨hf.order, hf.comps_pos, hf.comps_len, hf.sub_pos, h1, h2, h3⟩
    have hg : OnGrid f := ⟨hf.is_global, hdim, hf.dom_pos, hf.inside, hf.addressing⟩
    have hgd := gridDims_ok (names := gridNames) (grid := grid) (nb := f.nbDomain) hdim (by omega) hgrid
    obtain ⟨t, ht⟩ := ncTypeOf_of_ne h0
    rw [registerGlobalVar, globalDims, hgd]
    simp only [Res.ok_bind, Res.pure_eq, ht]
    generalize hvd : (⟨vname, f, hist, _, false, ""⟩ : Var) = v
    have hv : IsGlobalVar v vname f false hist := by
      subst hvd; exact ⟨rfl, rfl, rfl, h0⟩
    obtain ⟨il, st, su, e1, e2, e3, e4, e5⟩ := imapGlobal_eq hv hs hg
    obtain ⟨hl1, hl2, -⟩ := global_lengths (f := f) (hidden := false) (hist := hist) hg 0 0
      ((hist.getD 0 : Nat) + 1) e2 e4
    have hl := hf.inside.lengths
    have hchk : v.checkGlobal = .ok () := by
      rw [Var.checkGlobal, hv.field, if_neg (by simp [hf.is_global]),
        startGlobal_eq hv hs hg (le_refl 0) 0, Res.ok_bind, countGlobal_eq hv hs hg, Res.ok_bind,
        ncStride_eq hv hs hg, Res.ok_bind, e1, Res.ok_bind, if_pos]
      have : (leadList false 0 0 hist ++
          (List.replicate f.layout.comps.length 0 ++ (subIdx f 0 ++ f.loc))).length =
          (leadList false 1 1 hist ++
          (f.layout.comps ++ (subIdx f f.layout.nbSub ++ f.layout.pixShape))).length := by
        simp only [List.length_append, leadList_length, List.length_replicate,
          subIdx_length f f.layout.nbSub 0]
        omega
      exact ⟨this, hl1.symm, this.trans hl2.symm⟩
    rw [hchk]
    exact ⟨_, _, rfl⟩

theorem gridDims_throws : ∀ {names : List String} {grid nb : List Int}, nb.length ≤ names.length →
    nb.length ≤ grid.length → (∃ p ∈ List.zip grid nb, p.1 ≠ 0 ∧ p.1 ≠ p.2) →
    gridDims names grid nb = .throw .fileIOError
  | _, _, [], _, _, h => by simp at h
  | nm :: names, g :: grid, n :: nb, h1, h2, h => by
      rw [gridDims]
      split
      · rfl
      · rename_i hg
        obtain ⟨p, hp, h3⟩ := h
        rw [List.zip_cons_cons, List.mem_cons] at hp
        rcases hp with rfl | hp
        · exact absurd h3 hg
        · rw [gridDims_throws (by simpa using h1) (by simpa using h2) ⟨p, hp, h3⟩]
          rfl

/-- **C35** A field on a grid other than that of the fields registered before is rejected: some direction
has another number of points. -/
theorem C35_other_grid (vname : String) (f : IoField) (hidden : Bool) (hist : Option Nat) {grid : List Int}
    (hdim : f.nbDomain.length ≤ 3) (hgl : grid.length = 3)
    (h : ∃ p ∈ List.zip grid f.nbDomain, p.1 ≠ 0 ∧ p.1 ≠ p.2) :
    registerGlobalVar vname f hidden hist grid = .throw .fileIOError := by
  rw [registerGlobalVar, globalDims, gridDims_throws hdim (by omega) h]
  rfl

theorem zip_append_ne : ∀ {a b c : List Int}, (∀ n ∈ a, 1 ≤ n) → a.length = b.length → a ≠ b →
    ∃ p ∈ List.zip (a ++ c) b, p.1 ≠ 0 ∧ p.1 ≠ p.2
  | [], [], _, _, _, h => absurd rfl h
  | x :: a, y :: b, c, hp, hl, h => by
      by_cases hxy : x = y
      · obtain ⟨p, h1, h2⟩ := zip_append_ne (a := a) (b := b) (c := c)
          (fun n hn => hp n (List.mem_cons_of_mem _ hn)) (by simpa using hl) (by rintro rfl; exact h (by rw [hxy]))
        exact ⟨p, List.mem_cons_of_mem _ h1, h2⟩
      · exact ⟨(x, y), List.mem_cons_self .., by have := hp x (List.mem_cons_self ..); dsimp only; omega, hxy⟩

/-- **C35** Once a field is registered, a field of another domain of the same dimension is rejected. -/
theorem C35_other_domain {vname vname' : String} {f f' : IoField} {hidden hidden' : Bool}
    {hist hist' : Option Nat} {v : Var} {grid : List Int} (hf : GlobalField f)
    (hreg : registerGlobalVar vname f hidden hist [0, 0, 0] = .ok (v, grid))
    (hdim : f.nbDomain.length = f'.nbDomain.length) (hne : f.nbDomain ≠ f'.nbDomain) :
    registerGlobalVar vname' f' hidden' hist' grid = .throw .fileIOError := by
  rw [registerGlobalVar, globalDims] at hreg
  obtain ⟨r, h1, h2⟩ := Res.bind_eq_ok.1 hreg
  obtain ⟨g, h3, h4⟩ := Res.bind_eq_ok.1 h1
  cases h4
  obtain ⟨t, -, h2⟩ := Res.bind_eq_ok.1 h2
  obtain ⟨u, -, h5⟩ := Res.bind_eq_ok.1 h2
  have hgrid : g.2 = grid := by cases h5; rfl
  subst hgrid
  have hlen : f.nbDomain.length ≤ 3 := by
    by_contra hc
    match hn : f.nbDomain, hc with
    | _ :: _ :: _ :: _ :: _, _ => rw [hn] at h3; simp [gridDims, gridNames] at h3
    | [_, _, _], h | [_, _], h | [_], h | [], h => exact h (by simp)
  have hz : ∀ p ∈ List.zip [0, 0, 0] f.nbDomain, p.1 = 0 ∨ p.1 = p.2 := by
    rintro ⟨a, b⟩ hp
    have := (List.of_mem_zip hp).1
    simp at this
    exact .inl this
  rw [gridDims_ok (names := gridNames) hlen (by simpa using hlen) hz] at h3
  cases h3
  apply C35_other_grid
  · omega
  · simp; omega
  · exact zip_append_ne hf.dom_pos hdim hne

/-- After a field on 4 x 3 points, a field on 4 x 2 points is rejected. -/
example : registerGlobalVar "rho" ⟨"rho", "quad", ⟨.colMajor, [2], 1, [4, 2], [1, 4], 8⟩, 8, true, [4, 2], [0, 0], .real⟩
    false none [4, 3, 0] = .throw .fileIOError :=
  C35_other_grid _ _ _ _ (by decide) rfl ⟨(3, 2), by decide, by decide⟩

/-- A scalar on two sub-points, and a tensor field with a name of two parts, are rejected. -/
example : registerGlobalVar "rho" ⟨"rho", "quad", ⟨.colMajor, [1], 2, [4, 3], [1, 4], 12⟩, 12, true, [4, 3], [0, 0], .real⟩
      false none [0, 0, 0] = .throw .fileIOError ∧
    registerGlobalVar "a__b" ⟨"a__b", "quad", ⟨.colMajor, [2], 2, [4, 3], [1, 4], 12⟩, 12, true, [4, 3], [0, 0], .real⟩
      false none [0, 0, 0] = .throw .fileIOError := by decide +kernel

/-! ## C36 -/

/-- A process: its variable, its part of the field, the memory and the values it holds. -/
structure Rank (α : Type) where
  v : Var
  f : IoField
  buf : Mem α
  val : List Int → Int → List Int → α

/-- The process has registered its part of the field `vname` and its memory holds the values. -/
structure Rank.Ready (r : Rank α) (vname : String) (hidden : Bool) (hist : Option Nat) : Prop where
  field : GlobalField r.f
  scalar : hidden = true → r.f.layout.nbSub = 1
  registered : ∃ grid grid', registerGlobalVar vname r.f hidden hist grid = .ok (r.v, grid')
  holds : Holds r.f r.buf r.val

/-- No pixel belongs to both processes. -/
def Disjoint (r r' : Rank α) : Prop :=
  ∀ g, InBoxAt r.f.layout.pixShape r.f.loc g → ¬ InBoxAt r'.f.layout.pixShape r'.f.loc g

theorem filePos_inj {f f' : IoField} (h : SameField f f') {lead cc cc' : List Int} {s s' : Int}
    {g g' : List Int} (hc : InBox f.layout.comps cc) (hc' : InBox f'.layout.comps cc')
    (he : filePos f lead cc s g = filePos f' lead cc' s' g') : cc = cc' ∧ g = g' := by
  rw [filePos, filePos, FieldLayout.nbComp, FieldLayout.nbComp, h.comps] at he
  obtain ⟨h1, h2⟩ := List.append_inj (List.append_cancel_left he)
    (by rw [hc.length_eq, hc'.length_eq, h.comps])
  refine ⟨h1, ?_⟩
  split at h2
  · simpa using h2
  · simp only [List.singleton_append, List.cons.injEq] at h2
    exact h2.2

/-- **C36** If the subdomains of the processes do not overlap, a collective write puts every value of
every process at the place given by the global coordinates of the pixel, whatever the order in which
the requests are served; nothing else changes. -/
theorem C36_values {vname : String} {hidden : Bool} {hist : Option Nat} (ws : List (Rank α))
    (hr : ∀ r ∈ ws, r.Ready vname hidden hist) (hsame : ∀ r ∈ ws, ∀ r' ∈ ws, SameField r.f r'.f)
    (hdis : ws.Pairwise Disjoint)
    {nb frame fr : Int} {k : Nat} (hfr : varFrame nb frame = .ok fr) (hk : HistIdx k hist)
    {fv : FileVar α} (hsh : ∀ r ∈ ws, fv.form = r.v.form) :
    ∃ fv', Var.writeAll nb frame k (ws.map fun r => (r.v, r.buf)) fv = .ok fv' ∧
      fv'.form = fv.form ∧
      (∀ r ∈ ws, ∀ cc s g, InField r.f cc s g →
        fv'.data (filePos r.f (leadPos hidden fr k hist) cc s g) = r.val cc s g) ∧
      ∀ y, (∀ r ∈ ws, ∀ cc s g, InField r.f cc s g → y ≠ filePos r.f (leadPos hidden fr k hist) cc s g) →
        fv'.data y = fv.data y := by
  induction ws generalizing fv with
  | nil => exact ⟨fv, rfl, rfl, by simp, fun _ _ => rfl⟩
  | cons r ws ih =>
    rw [List.pairwise_cons] at hdis
    have hr0 := hr r (by simp)
    obtain ⟨grid, grid', hreg⟩ := hr0.registered
    obtain ⟨fv1, h1, h2, h3, h4⟩ := C35_write hr0.field hr0.scalar hreg hfr hk hr0.holds (hsh r (by simp))
    obtain ⟨fv2, e1, e2, e3, e4⟩ := ih (fun r' h => hr r' (by simp [h]))
      (fun a ha b hb => hsame a (by simp [ha]) b (by simp [hb])) hdis.2 (fv := fv1)
      (fun r' h => h2.trans (hsh r' (by simp [h])))
    refine ⟨fv2, ?_, e2.trans h2, ?_, ?_⟩
    · rw [List.map_cons, Var.writeAll, h1, Res.ok_bind, e1]
    · intro r' hr' cc s g hin
      rcases List.mem_cons.1 hr' with rfl | hr'
      · rw [e4, h3 _ _ _ hin]
        intro r2 hr2 cc' s' g' hin' he
        obtain ⟨-, rfl⟩ := filePos_inj (hsame r' (by simp) r2 (by simp [hr2])) hin.1 hin'.1 he
        exact hdis.1 r2 hr2 g hin.2.2.2 hin'.2.2.2
      · exact e3 r' hr' cc s g hin
    · intro y hy
      rw [e4 y fun r' hr' => hy r' (by simp [hr']), h4 y (hy r (by simp))]

/-- **C36** The order in which the requests are served does not matter. -/
theorem C36_order {vname : String} {hidden : Bool} {hist : Option Nat} (ws ws' : List (Rank α)) (hp : ws.Perm ws')
    (hr : ∀ r ∈ ws, r.Ready vname hidden hist) (hsame : ∀ r ∈ ws, ∀ r' ∈ ws, SameField r.f r'.f)
    (hdis : ws.Pairwise Disjoint)
    {nb frame fr : Int} {k : Nat} (hfr : varFrame nb frame = .ok fr) (hk : HistIdx k hist)
    {fv : FileVar α} (hsh : ∀ r ∈ ws, fv.form = r.v.form) :
    ∃ fv', Var.writeAll nb frame k (ws.map fun r => (r.v, r.buf)) fv = .ok fv' ∧
      Var.writeAll nb frame k (ws'.map fun r => (r.v, r.buf)) fv = .ok fv' := by
  obtain ⟨fv1, h1, h2, h3, h4⟩ := C36_values ws hr hsame hdis hfr hk hsh
  have hsymm : ∀ {a b : Rank α}, Disjoint a b → Disjoint b a := fun h g h1 h2 => h g h2 h1
  obtain ⟨fv2, e1, e2, e3, e4⟩ := C36_values ws' (fun r h => hr r (hp.mem_iff.2 h))
    (fun a ha b hb => hsame a (hp.mem_iff.2 ha) b (hp.mem_iff.2 hb))
    (hp.pairwise hdis hsymm) hfr hk (fun r h => hsh r (hp.mem_iff.2 h))
  have : fv1 = fv2 := by
    have hd : fv1.data = fv2.data := by
      funext y
      by_cases hy : ∃ r ∈ ws, ∃ cc s g, InField r.f cc s g ∧ y = filePos r.f (leadPos hidden fr k hist) cc s g
      · obtain ⟨r, hr, cc, s, g, hin, rfl⟩ := hy
        rw [h3 r hr _ _ _ hin, e3 r (hp.mem_iff.1 hr) _ _ _ hin]
      · rw [h4 y fun r hr cc s g hin he => hy ⟨r, hr, cc, s, g, hin, he⟩,
          e4 y fun r hr cc s g hin he => hy ⟨r, hp.mem_iff.2 hr, cc, s, g, hin, he⟩]
    have hs := h2.trans e2.symm
    cases fv1; cases fv2
    simp only [FileVar.form, Prod.mk.injEq] at hd hs
    rw [hd, hs.1, hs.2]
  exact ⟨fv1, h1, this ▸ e1⟩

theorem inBoxAt_of_within {dom nb loc g : List Int} (h : Within dom nb loc) (hg : InBoxAt nb loc g) :
    InBox dom g := by
  induction dom generalizing nb loc g with
  | nil =>
    match nb, loc, h with
    | [], [], _ => cases g <;> simp_all [InBoxAt, InBox]
  | cons N dom ih =>
    match nb, loc, h with
    | n :: nb, l :: loc, h =>
      cases g with
      | nil => exact hg.elim
      | cons x g =>
        obtain ⟨h1, h2, h3, h4⟩ := h
        obtain ⟨e1, e2, e3⟩ := hg
        exact ⟨by omega, by omega, ih h4 e3⟩

/-- **C36** If the subdomains partition the domain, then after a collective write any process, with
any decomposition and storage order, reads back for all of its elements the values that the field had
on the processes that wrote it. -/
theorem C36_round_trip {vname : String} {hidden : Bool} {hist : Option Nat} (ws : List (Rank α))
    (hr : ∀ r ∈ ws, r.Ready vname hidden hist) (hsame : ∀ r ∈ ws, ∀ r' ∈ ws, SameField r.f r'.f)
    (hdis : ws.Pairwise Disjoint) {dom : List Int}
    (hcov : ∀ g, InBox dom g → ∃ r ∈ ws, InBoxAt r.f.layout.pixShape r.f.loc g)
    {val : List Int → Int → List Int → α}
    (hval : ∀ r ∈ ws, ∀ cc s g, InField r.f cc s g → r.val cc s g = val cc s g)
    {nb nb' frame frame' fr numrecs : Int} {k : Nat} (hfr : varFrame nb frame = .ok fr)
    (hfr' : varFrame nb' frame' = .ok fr) (hk : HistIdx k hist) (hn : fr < numrecs)
    {fv : FileVar α} (hsh : ∀ r ∈ ws, fv.form = r.v.form)
    {reader : Rank α} (hread : reader.Ready vname hidden hist) (hrs : ∀ r ∈ ws, SameField r.f reader.f)
    (hrd : reader.f.nbDomain = dom) (hne : ws ≠ []) :
    ∃ fv' buf', Var.writeAll nb frame k (ws.map fun r => (r.v, r.buf)) fv = .ok fv' ∧
      reader.v.readGlobal nb' frame' k numrecs fv' reader.buf = .ok buf' ∧ Holds reader.f buf' val := by
  obtain ⟨fv', h1, h2, h3, h4⟩ := C36_values ws hr hsame hdis hfr hk hsh
  obtain ⟨r0, hr0⟩ := List.exists_mem_of_ne_nil ws hne
  obtain ⟨g1, g1', hreg0⟩ := (hr r0 hr0).registered
  obtain ⟨g2, g2', hregr⟩ := hread.registered
  obtain ⟨hv, hs, hg⟩ := NetCDF.registered (hr r0 hr0).field (hr r0 hr0).scalar hreg0
  obtain ⟨hv', hs', hg'⟩ := NetCDF.registered hread.field hread.scalar hregr
  obtain ⟨buf', e1, ⟨st, e2, e3⟩, -⟩ := C35_read hread.field hread.scalar hregr hfr' hk hn hread.holds
    (h2.trans ((hsh r0 hr0).trans (form_congr hv hs hg hv' hs' hg' (hrs r0 hr0))))
  refine ⟨fv', buf', h1, e1, st, e2, ?_⟩
  intro cc s g hin
  have hgd : InBox dom g := by
    rw [← hrd]; exact inBoxAt_of_within hread.field.inside hin.2.2.2
  obtain ⟨r, hrm, hrg⟩ := hcov g hgd
  have hin' : InField r.f cc s g := by
    have := hrs r hrm
    exact ⟨by rw [this.comps]; exact hin.1, hin.2.1, by rw [this.sub]; exact hin.2.2.1, hrg⟩
  rw [e3 _ _ _ hin]
  congr 1
  exact (congrArg fv'.data (filePos_congr (hrs r hrm) _ cc s g).symm).trans
    ((h3 r hrm cc s g hin').trans (hval r hrm cc s g hin'))

/-- The two halves of the example partition the domain. -/
example : (∀ g, InBoxAt exLeft.layout.pixShape exLeft.loc g →
      ¬ InBoxAt exRight.layout.pixShape exRight.loc g) ∧
    (∀ g, InBox [4, 3] g → InBoxAt exLeft.layout.pixShape exLeft.loc g ∨
      InBoxAt exRight.layout.pixShape exRight.loc g) ∧ SameField exLeft exRight ∧
    SameField exLeft exWhole ∧ exLeft.layout.order ≠ exRight.layout.order := by
  refine ⟨?_, ?_, ⟨rfl, rfl, rfl, rfl⟩, ⟨rfl, rfl, rfl, rfl⟩, by decide⟩
  · intro g h1 h2
    rcases g with _ | ⟨x, _ | ⟨y, _ | ⟨z, g⟩⟩⟩ <;> simp [exLeft, exRight, InBoxAt] at h1 h2
    omega
  · intro g h
    rcases g with _ | ⟨x, _ | ⟨y, _ | ⟨z, g⟩⟩⟩ <;> simp [exLeft, exRight, InBoxAt, InBox] at h ⊢
    omega

end Verif.Props
