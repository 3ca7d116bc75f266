import Verif.Lemmas.NetCDF
/-
Lemmas about variables of local fields.
-/
namespace Verif.NetCDF
open Verif Verif.Ccoord Verif.Layout Verif.Layout.FieldLayout Verif.RawMemory Verif.FileIO Verif.Props

/-- The variable as built by the registration of a local field. -/
structure IsLocalVar (v : Var) (vname : String) (f : IoField) (hist : Option Nat) (total : Int) :
    Prop where
  field : v.field = f
  hist_eq : v.hist = hist
  dims : v.dims = leadDims false hist ++ (tensorDims vname 0 f.layout.comps ++ (subPtDims f ++
    [⟨dimName "pts" vname, total⟩]))
  clean : Clean vname
  total_pos : total ≠ 0
  ty : f.ty ≠ .complex

theorem base_pts' {name : String} (h : Clean name) : baseName (dimName "pts" name) = "pts" := by
  by_cases hne : name = ""
  · subst hne; decide +kernel
  · exact base_pts h hne

section
variable {v : Var} {vname : String} {f : IoField} {hist : Option Nat} {total : Int}

theorem mapRes_pts {g : Dim → Res Int} {x : Int} (hc : Clean vname)
    (hg : ∀ d : Dim, baseName d.name = "pts" → g d = .ok x) :
    mapRes g [⟨dimName "pts" vname, total⟩] = .ok [x] := by
  have hb := base_pts' hc
  generalize dimName "pts" vname = nm at hb ⊢
  rw [mapRes, hg _ hb]
  rfl

/-- The start of the request for one pixel. -/
def startOf (f : IoField) (hist : Option Nat) (frame : Int) (k : Nat) (off : Int) : List Int :=
  leadList false frame k hist ++ (List.replicate f.layout.comps.length 0 ++ (subIdx f 0 ++ [off]))

/-- The extents of the request for one pixel. -/
def countOf (f : IoField) (hist : Option Nat) : List Int :=
  leadList false 1 1 hist ++ (f.layout.comps ++ (subIdx f f.layout.nbSub ++ [1]))

/-- The strides in the file for one pixel. -/
def strideOf (f : IoField) (hist : Option Nat) : List Int :=
  leadList false 1 ((hist.getD 0 : Nat) + 1) hist ++
    (List.replicate f.layout.comps.length 1 ++ (subIdx f 1 ++ [1]))

theorem startLocal_eq (hv : IsLocalVar v vname f hist total) (hs : StorableShape vname f)
    {frame : Int} (hf : 0 ≤ frame) (k : Nat) (marks : List Int) :
    v.startLocal frame k marks = .ok ((Var.marked marks).map (startOf f hist frame k)) := by
  obtain ⟨hfi, hhi, hd, hc, -⟩ := hv
  rw [Var.startLocal, if_neg (by omega)]
  refine mapRes_map fun off _ => ?_
  rw [hd]
  refine mapRes_append _ _ _ (mapRes_lead ?_ ?_) (mapRes_append _ _ _
    (mapRes_tensorDims_const hs ?_) (mapRes_append _ _ _ (mapRes_sub hs ?_) (mapRes_pts hc ?_)))
  · intro d h; simp [Var.startLocal1, h]
  · intro hsome d h; simp [Var.startLocal1, h, hhi, hsome]
  · intro d h; simp [Var.startLocal1, h]
  · intro d h; simp [Var.startLocal1, h]
  · intro d h; simp [Var.startLocal1, h]

theorem countLocal_eq (hv : IsLocalVar v vname f hist total) (hs : StorableShape vname f)
    (marks : List Int) :
    v.countLocal marks = .ok ((Var.marked marks).map fun _ => countOf f hist) := by
  obtain ⟨hfi, hhi, hd, hc, -⟩ := hv
  rw [Var.countLocal]
  refine mapRes_map fun off _ => ?_
  rw [hd]
  refine mapRes_append _ _ _ (mapRes_lead ?_ ?_) (mapRes_append _ _ _
    (mapRes_tensor ?_) (mapRes_append _ _ _ (mapRes_sub hs ?_) (mapRes_pts hc ?_)))
  · intro d h; simp [Var.countLocal1, h]
  · intro hsome d h; simp [Var.countLocal1, h]
  · intro i n hi
    have hne : f.layout.comps ≠ [] := fun h => by simp [h] at hi
    have hi' : i ≤ 2147483647 := by have := hs.comps_len; omega
    have hidx := C38_index vname i hi'
    have hb := base_tensor (hs.clean_name hne) i
    rw [tensorDimName] at hidx
    generalize dimName "tensor_dim" (vname ++ "-" ++ toString i) = nm at hb hidx ⊢
    simp [Var.countLocal1, hb, hidx, hfi]
  · intro d h; simp [Var.countLocal1, h, hfi]
  · intro d h; simp [Var.countLocal1, h]

theorem ncStrideLocal_eq (hv : IsLocalVar v vname f hist total) (hs : StorableShape vname f) :
    v.ncStride = .ok (strideOf f hist) := by
  obtain ⟨hfi, hhi, hd, hc, -⟩ := hv
  rw [Var.ncStride, hd]
  refine mapRes_append _ _ _ (mapRes_lead ?_ ?_) (mapRes_append _ _ _
    (mapRes_tensorDims_const hs ?_) (mapRes_append _ _ _ (mapRes_sub hs ?_) (mapRes_pts hc ?_)))
  · intro d h; simp [Var.ncStride1, h]
  · intro hsome d h; simp [Var.ncStride1, h, hhi, hsome]
  · intro d h; simp [Var.ncStride1, h, gridAxis]
  · intro d h; simp [Var.ncStride1, h, gridAxis]
  · intro d h; simp [Var.ncStride1, h, gridAxis]

theorem imapLocal_eq (hv : IsLocalVar v vname f hist total) {st : List Int}
    (hst : f.layout.strides (if f.layout.nbComp = 1 then .pixel else .subPt) 1 = .ok st) :
    ∃ il : List Int, v.imapLocal = .ok (il ++ st) ∧ il.length = (leadDims false hist).length := by
  obtain ⟨rfl, rfl, hd, -, -⟩ := hv
  have hfr : "frame" ∈ v.dims.map Dim.name := by
    rw [hd]; cases v.hist <;> simp [leadDims]
  rw [Var.imapLocal, Var.iterUnit, hst, Res.ok_bind]
  cases hh : v.hist with
  | none => exact ⟨[v.field.nbPixels * v.field.layout.nbDof], by simp only [cutImap_frame hfr]; rfl, rfl⟩
  | some m =>
    refine ⟨[v.field.nbPixels * v.field.layout.nbDof, Int.tdiv (v.field.nbPixels *
      v.field.layout.nbDof) ((m : Int) + 1)], by simp only [cutImap_frame hfr]; rfl, rfl⟩

theorem fileShapeLocal_eq (hv : IsLocalVar v vname f hist total) (hs : StorableShape vname f) :
    fileShape v.dims = leadShape false hist ++ (f.layout.comps.map some ++
      ((subIdx f f.layout.nbSub).map some ++ [some total])) := by
  rw [hv.dims, fileShape_append, fileShape_append, fileShape_append, fileShape_lead,
    fileShape_tensor _ hs.comps_pos, subPtDims_eq hs, subIdx]
  have := hs.sub_pos
  have ht := hv.total_pos
  have e : fileShape [⟨dimName "pts" vname, total⟩] = [some total] := by
    simp only [fileShape, List.map_cons, List.map_nil]; rw [if_neg ht]
  rw [e]
  split
  · rfl
  · simp only [fileShape, List.map_cons, List.map_nil]
    rw [if_neg (by omega)]

/-- The request for one pixel, seen as a field on one pixel of a grid of `total` pixels. -/
def onePixel (f : IoField) (total off : Int) : IoField :=
  { name := f.name, tag := f.tag, nbPixels := f.nbPixels, isGlobal := true, nbDomain := [total],
    loc := [off], ty := f.ty,
    layout := ⟨f.layout.order, f.layout.comps, f.layout.nbSub, [1], [1], f.layout.nbBuf⟩ }

theorem onePixel_storable (hs : StorableShape vname f) (total off : Int) :
    StorableShape vname (onePixel f total off) :=
  ⟨hs.order, hs.comps_pos, hs.comps_len, hs.sub_pos, hs.sub_scalar, hs.clean_name, hs.clean_tag⟩

theorem addressing_line (n : Int) : Addressing [n] [1] n := by
  refine ⟨rfl, ?_, ?_⟩
  · intro c hc
    rcases c with _ | ⟨x, _ | ⟨y, c⟩⟩ <;> simp [InBox] at hc
    simp [dot]; omega
  · intro c c' hc hc' h
    rcases c with _ | ⟨x, _ | ⟨y, c⟩⟩ <;> simp [InBox] at hc
    rcases c' with _ | ⟨x', _ | ⟨y', c'⟩⟩ <;> simp [InBox] at hc'
    simpa [dot] using h

theorem onePixel_onGrid {n off : Int} (hl : LocalField f n) (hn : 0 < n) (h0 : 0 ≤ off)
    (h1 : off < total) : OnGrid (onePixel f total off) := by
  refine ⟨rfl, by simp [onePixel], ?_, ?_, ?_⟩
  · intro m hm
    simp only [onePixel, List.mem_singleton] at hm
    omega
  · exact ⟨by omega, h0, by omega, trivial⟩
  · have h := addressing_line 1
    refine ⟨rfl, fun c hc => ?_, h.inj⟩
    have := h.bounds c hc
    refine ⟨this.1, ?_⟩
    simp only [onePixel, hl.nbBuf] at this ⊢
    omega

theorem onePixel_strides (hl : LocalField f n) (it : IterUnit) (e : Int) :
    (onePixel f total off).layout.strides it e = f.layout.strides it e := by
  have h1 := hl.strides
  obtain ⟨nm, tg, ⟨o, cs, nsub, sh, st, nb⟩, np, ig, nd, lc⟩ := f
  simp only at h1
  subst h1
  rfl

theorem onePixel_inField {off : Int} {cc : List Int} {s : Int} {g : List Int} :
    InField (onePixel f total off) cc s g ↔
      InBox f.layout.comps cc ∧ 0 ≤ s ∧ s < f.layout.nbSub ∧ g = [off] := by
  simp only [InField, onePixel]
  have : InBoxAt [1] [off] g ↔ g = [off] := by
    rcases g with _ | ⟨x, _ | ⟨y, g⟩⟩ <;> simp [InBoxAt]; omega
  rw [this]

theorem local_inField {n : Int} (hl : LocalField f n) {cc : List Int} {s : Int} {g : List Int} :
    InField f cc s g ↔
      InBox f.layout.comps cc ∧ 0 ≤ s ∧ s < f.layout.nbSub ∧ ∃ i, 0 ≤ i ∧ i < n ∧ g = [i] := by
  simp only [InField, hl.shape, hl.loc]
  have : InBoxAt [n] [0] g ↔ ∃ i, 0 ≤ i ∧ i < n ∧ g = [i] := by
    rcases g with _ | ⟨x, _ | ⟨y, g⟩⟩ <;> simp [InBoxAt]
  rw [this]

/-- The pixels of a column-major local field, and of any local field with one value per pixel, lie
one after the other. -/
theorem memPos_slot {n : Int} (hl : LocalField f n)
    (hcol : f.layout.order = .colMajor ∨ f.layout.nbDof = 1) {su : List Int}
    (hsu : f.layout.strides .subPt 1 = .ok su) {cc : List Int} (hcc : InBox f.layout.comps cc) (s i off : Int) :
    memPos f su cc s [i] = i * f.layout.nbDof + memPos (onePixel f total off) su cc s [off] := by
  simp only [memPos, hl.loc, relCoord, onePixel, List.zipWith_cons_cons, List.zipWith_nil_left, sub_zero, sub_self]
  have key : ∃ a : List Int, ∃ b, a.length = cc.length ∧ su = a ++ [b, f.layout.nbDof] := by
    rcases hl.order with ho | ho
    · rw [strides_col _ ho, hl.strides] at hsu
      cases hsu
      refine ⟨accStrides 1 f.layout.comps, f.layout.comps.prod, ?_, ?_⟩
      · rw [accStrides_length, hcc.length_eq]
      · simp [nbDof, nbComp_eq]
    · have h1 : f.layout.nbDof = 1 := by
        rcases hcol with h | h
        · rw [ho] at h; cases h
        · exact h
      rw [strides_row _ ho, hl.strides] at hsu
      cases hsu
      rw [h1]
      refine ⟨_, _, ?_, by simp; rfl⟩
      rw [List.length_reverse, List.length_map, accStrides_length, List.length_reverse, hcc.length_eq]
  obtain ⟨a, b, hab, rfl⟩ := key
  rw [dot_append hab.symm, dot_append hab.symm]
  simp only [dot]
  ring

theorem countOf_size (hs : StorableShape vname f) : getSize (countOf f hist) = f.layout.nbDof := by
  have h1 := hs.sub_scalar
  have h2 : (leadList false 1 1 hist).prod = 1 := by cases hist <;> simp [leadList]
  rw [getSize_eq_prod, countOf, List.prod_append, List.prod_append, List.prod_append, h2, nbDof,
    nbComp_eq, subIdx]
  rw [nbComp_eq] at h1 ⊢
  split
  · rename_i h; simp [h, h1 h]
  · simp

theorem linear_onePixel {off : Int} {il st su : List Int}
    (hil : il.length = (leadDims false hist).length)
    (haddr : ∀ cc s pc, InBox f.layout.comps cc → 0 ≤ s → s < f.layout.nbSub →
        dot st (cc ++ (subIdx f s ++ pc)) = dot su (cc ++ s :: pc)) (cc : List Int) (s : Int) (g : List Int)
    (hin : InField (onePixel f total off) cc s g) :
    linearIndex (boxIdx (onePixel f total off) false hist cc s g) (il ++ st) =
      memPos (onePixel f total off) su cc s g :=
  linear_global (f := onePixel f total off) hil haddr hin

/-- One request of a write. -/
theorem putOne_spec {α : Type} {n off i fr : Int} {k : Nat} (hl : LocalField f n) (hn : 0 < n)
    (hs : StorableShape vname f) (hcol : f.layout.order = .colMajor ∨ f.layout.nbDof = 1)
    (h0 : 0 ≤ off) (h1 : off < total) (hfr : 0 ≤ fr) (hk : HistIdx k hist) {il st su : List Int}
    (hil : il.length = (leadDims false hist).length) (hsu : f.layout.strides .subPt 1 = .ok su)
    (hst : st.length = f.layout.comps.length + ((subIdx f 0).length + 1))
    (haddr : ∀ cc s pc, InBox f.layout.comps cc → 0 ≤ s → s < f.layout.nbSub →
        dot st (cc ++ (subIdx f s ++ pc)) = dot su (cc ++ s :: pc))
    {buf : Mem α} {val : List Int → Int → List Int → α}
    (hb : ∀ cc s, InBox f.layout.comps cc → 0 ≤ s → s < f.layout.nbSub →
      buf (memPos f su cc s [i]) = some (val cc s [i]))
    {fv : FileVar α} (hsh : fv.shape = leadShape false hist ++ (f.layout.comps.map some ++
      ((subIdx f f.layout.nbSub).map some ++ [some total]))) :
    ∃ fv', putVarm fv (startOf f hist fr k off) (countOf f hist) (strideOf f hist) (il ++ st)
        (fun a => buf (i * f.layout.nbDof + a)) = .ok fv' ∧ fv'.form = fv.form ∧
      (∀ cc s, InBox f.layout.comps cc → 0 ≤ s → s < f.layout.nbSub →
        fv'.data (filePos f (leadList false fr k hist) cc s [off]) = val cc s [i]) ∧
      ∀ y, (∀ cc s, InBox f.layout.comps cc → 0 ≤ s → s < f.layout.nbSub →
          y ≠ filePos f (leadList false fr k hist) cc s [off]) → fv'.data y = fv.data y := by
  obtain ⟨fv', e1, e2, e3, e4⟩ := putVarm_spec (vname := vname) (f := onePixel f total off)
    (hidden := false) (hist := hist) (onePixel_storable hs total off)
    (onePixel_onGrid hl hn h0 h1) hfr hk hil ((onePixel_strides hl _ _).trans hsu) hst
    (linear_onePixel hil haddr)
    (buf := fun a => buf (i * f.layout.nbDof + a)) (val := fun cc s _ => val cc s [i])
    ⟨su, (onePixel_strides hl _ _).trans hsu, by
      intro cc s g hin
      obtain ⟨hcc, hs0, hs1, rfl⟩ := onePixel_inField.1 hin
      beta_reduce
      rw [← memPos_slot hl hcol hsu hcc]
      exact hb cc s hcc hs0 hs1⟩ (fv := fv) hsh
  refine ⟨fv', e1, e2, ?_, ?_⟩
  · intro cc s hcc hs0 hs1
    exact e3 cc s [off] (onePixel_inField.2 ⟨hcc, hs0, hs1, rfl⟩)
  · intro y hy
    refine e4 y fun cc s g hin => ?_
    obtain ⟨hcc, hs0, hs1, rfl⟩ := onePixel_inField.1 hin
    exact hy cc s hcc hs0 hs1

theorem filePos_off {lead cc cc' : List Int} {s s' off off' : Int} (hc : InBox f.layout.comps cc)
    (hc' : InBox f.layout.comps cc')
    (h : filePos f lead cc s [off] = filePos f lead cc' s' [off']) : off = off' := by
  rw [filePos, filePos] at h
  obtain ⟨-, h2⟩ := List.append_inj (List.append_cancel_left h) (by rw [hc.length_eq, hc'.length_eq])
  split at h2
  · simpa using h2
  · simpa using (List.cons.inj h2).2

/-- The loop over the requests of a write, from slot `i0` on. -/
theorem putRequests_spec {α : Type} {n fr : Int} {k : Nat} (hl : LocalField f n) (hn : 0 < n)
    (hs : StorableShape vname f) (hcol : f.layout.order = .colMajor ∨ f.layout.nbDof = 1)
    (hfr : 0 ≤ fr) (hk : HistIdx k hist) {il st su : List Int}
    (hil : il.length = (leadDims false hist).length) (hsu : f.layout.strides .subPt 1 = .ok su)
    (hst : st.length = f.layout.comps.length + ((subIdx f 0).length + 1))
    (haddr : ∀ cc s pc, InBox f.layout.comps cc → 0 ≤ s → s < f.layout.nbSub →
        dot st (cc ++ (subIdx f s ++ pc)) = dot su (cc ++ s :: pc))
    {buf : Mem α} {val : List Int → Int → List Int → α} (offs : List Int) (hnd : offs.Nodup)
    (ho : ∀ off ∈ offs, 0 ≤ off ∧ off < total) (i0 : Nat)
    (hb : ∀ j < offs.length, ∀ cc s, InBox f.layout.comps cc → 0 ≤ s → s < f.layout.nbSub →
      buf (memPos f su cc s [((i0 + j : Nat) : Int)]) = some (val cc s [((i0 + j : Nat) : Int)]))
    {fv : FileVar α} (hsh : fv.shape = leadShape false hist ++ (f.layout.comps.map some ++
      ((subIdx f f.layout.nbSub).map some ++ [some total]))) :
    ∃ fv', Var.putRequests (strideOf f hist) (il ++ st) buf
        (offs.map fun off => (startOf f hist fr k off, countOf f hist)) ((i0 : Int) * f.layout.nbDof) fv
          = .ok fv' ∧ fv'.form = fv.form ∧
      (∀ j (h : j < offs.length), ∀ cc s, InBox f.layout.comps cc → 0 ≤ s → s < f.layout.nbSub →
        fv'.data (filePos f (leadList false fr k hist) cc s [offs[j]]) =
          val cc s [((i0 + j : Nat) : Int)]) ∧
      ∀ y, (∀ off ∈ offs, ∀ cc s, InBox f.layout.comps cc → 0 ≤ s → s < f.layout.nbSub →
          y ≠ filePos f (leadList false fr k hist) cc s [off]) → fv'.data y = fv.data y := by
  induction offs generalizing i0 fv with
  | nil => exact ⟨fv, rfl, rfl, by simp, fun _ _ => rfl⟩
  | cons off offs ih =>
    rw [List.nodup_cons] at hnd
    obtain ⟨h0, h1⟩ := ho off (by simp)
    obtain ⟨fv1, e1, e2, e3, e4⟩ := putOne_spec (i := (i0 : Int)) hl hn hs hcol h0 h1 hfr hk hil hsu hst
      haddr (buf := buf) (val := val) (by simpa using hb 0 (by simp)) hsh
    obtain ⟨fv2, d1, d2, d3, d4⟩ := ih hnd.2 (fun o h => ho o (by simp [h])) (i0 + 1)
      (by
        intro j hj
        have := hb (j + 1) (by simpa using hj)
        rwa [show i0 + (j + 1) = i0 + 1 + j by omega] at this) (fv := fv1) ((congrArg Prod.fst e2).trans hsh)
    refine ⟨fv2, ?_, d2.trans e2, ?_, ?_⟩
    · rw [List.map_cons, Var.putRequests, e1, Res.ok_bind, countOf_size hs]
      rw [← d1]
      congr 1
      push_cast
      ring
    · intro j hj cc s hcc hs0 hs1
      cases j with
      | zero =>
        rw [d4]
        · simpa using e3 cc s hcc hs0 hs1
        · intro o ho' cc' s' hcc' _ _ he
          have := filePos_off hcc hcc' he
          simp only [List.getElem_cons_zero] at this
          exact hnd.1 (this ▸ ho')
      | succ j =>
        have := d3 j (by simpa using hj) cc s hcc hs0 hs1
        rw [show i0 + (j + 1) = i0 + 1 + j by omega]
        simpa using this
    · intro y hy
      rw [d4 y fun o ho' => hy o (by simp [ho']), e4 y (hy off (by simp))]

/-- One request of a read. -/
theorem getOne_spec {α : Type} {n off i fr : Int} {k : Nat} (hl : LocalField f n)
    (hi0 : 0 ≤ i) (hi : i < n)
    (hs : StorableShape vname f) (hcol : f.layout.order = .colMajor ∨ f.layout.nbDof = 1)
    (h0 : 0 ≤ off) (h1 : off < total) (hfr : 0 ≤ fr) (hk : HistIdx k hist) {numrecs : Int}
    (hnr : fr < numrecs) {il st su : List Int}
    (hil : il.length = (leadDims false hist).length) (hsu : f.layout.strides .subPt 1 = .ok su)
    (hst : st.length = f.layout.comps.length + ((subIdx f 0).length + 1))
    (haddr : ∀ cc s pc, InBox f.layout.comps cc → 0 ≤ s → s < f.layout.nbSub →
        dot st (cc ++ (subIdx f s ++ pc)) = dot su (cc ++ s :: pc))
    {buf : Mem α} {val : List Int → Int → List Int → α} (hb : Holds f buf val)
    {fv : FileVar α} (hsh : fv.shape = leadShape false hist ++ (f.layout.comps.map some ++
      ((subIdx f f.layout.nbSub).map some ++ [some total]))) :
    ∃ buf', getVarm fv numrecs (startOf f hist fr k off) (countOf f hist) (strideOf f hist) (il ++ st)
        (fun a => buf (i * f.layout.nbDof + a)) = .ok buf' ∧
      Holds f (fun a => buf' (a - i * f.layout.nbDof)) (fun cc s g =>
        if g = [i] then fv.data (filePos f (leadList false fr k hist) cc s [off]) else val cc s g) ∧
      SameOutside f buf (fun a => buf' (a - i * f.layout.nbDof)) := by
  obtain ⟨su', hsu', hb⟩ := hb
  rw [hsu] at hsu'
  cases hsu'
  have hsi : ∀ cc s, InBox f.layout.comps cc → 0 ≤ s → s < f.layout.nbSub → InField f cc s [i] :=
    fun cc s hcc hs0 hs1 => (local_inField hl).2 ⟨hcc, hs0, hs1, i, hi0, hi, rfl⟩
  obtain ⟨buf', e1, ⟨su1, g1, e2⟩, ⟨su2, g2, e3⟩⟩ := getVarm_spec (vname := vname) (f := onePixel f total off)
    (hidden := false) (hist := hist) (onePixel_storable hs total off)
    (onePixel_onGrid hl (by omega) h0 h1) hfr hk hnr hil ((onePixel_strides hl _ _).trans hsu) hst
    (linear_onePixel hil haddr)
    (buf := fun a => buf (i * f.layout.nbDof + a)) (val := fun cc s _ => val cc s [i])
    ⟨su, (onePixel_strides hl _ _).trans hsu, by
      intro cc s g hin
      obtain ⟨hcc, hs0, hs1, rfl⟩ := onePixel_inField.1 hin
      beta_reduce
      rw [← memPos_slot hl hcol hsu hcc]
      exact hb cc s _ (hsi cc s hcc hs0 hs1)⟩ (fv := fv) hsh
  rw [onePixel_strides hl, hsu] at g1 g2
  cases g1
  cases g2
  have hinj : ∀ cc s g, InField f cc s g → g ≠ [i] → ∀ cc' s' g', InField (onePixel f total off) cc' s' g' →
      memPos f su cc s g - i * f.layout.nbDof ≠ memPos (onePixel f total off) su cc' s' g' := by
    intro cc s g hin hne cc' s' g' hin' he
    obtain ⟨hcc, hs0, hs1, rfl⟩ := onePixel_inField.1 hin'
    have h2 := memPos_slot (total := total) (i := i) (off := off) (s := s') hl hcol hsu hcc
    have h3 : memPos f su cc s g = memPos f su cc' s' [i] := by omega
    refine hne ?_
    have ha := addressing_line n
    have := memPos_inj (f := { f with nbDomain := [n] }) hl.order
      (by simp only [hl.shape, hl.loc]; exact ⟨hl.nonneg, le_refl 0, by omega, trivial⟩)
      (by simp only [hl.shape, hl.strides, hl.nbBuf]; exact ha) hsu hin (hsi cc' s' hcc hs0 hs1) h3
    exact this.2.2
  refine ⟨buf', e1, ⟨su, hsu, ?_⟩, ⟨su, hsu, ?_⟩⟩
  · intro cc s g hin
    by_cases hg : g = [i]
    · subst hg
      obtain ⟨hcc, hs0, hs1, -⟩ := (local_inField hl).1 hin
      simp only [if_true]
      rw [memPos_slot (total := total) (off := off) hl hcol hsu hcc, add_sub_cancel_left,
        e2 cc s [off] (onePixel_inField.2 ⟨hcc, hs0, hs1, rfl⟩)]
      rfl
    · beta_reduce
      rw [if_neg hg, e3 _ (hinj cc s g hin hg)]
      beta_reduce
      rw [add_sub_cancel]
      exact hb cc s g hin
  · intro a ha
    beta_reduce
    rw [e3]
    beta_reduce
    rw [add_sub_cancel]
    intro cc s g hin he
    obtain ⟨hcc, hs0, hs1, rfl⟩ := onePixel_inField.1 hin
    refine ha cc s [i] (hsi cc s hcc hs0 hs1) ?_
    rw [memPos_slot (total := total) (off := off) hl hcol hsu hcc, ← he]
    ring

theorem sameOutside_trans {α : Type} {a b c : Mem α} (h1 : SameOutside f a b) (h2 : SameOutside f b c) :
    SameOutside f a c := by
  obtain ⟨su, g1, h1⟩ := h1
  obtain ⟨su', g2, h2⟩ := h2
  rw [g1] at g2
  cases g2
  exact ⟨su, g1, fun x hx => (h2 x hx).trans (h1 x hx)⟩

/-- The loop over the requests of a read, from slot `i0` on. -/
theorem getRequests_spec {α : Type} {n fr : Int} {k : Nat} (hl : LocalField f n)
    (hs : StorableShape vname f) (hcol : f.layout.order = .colMajor ∨ f.layout.nbDof = 1)
    (hfr : 0 ≤ fr) (hk : HistIdx k hist) {numrecs : Int} (hnr : fr < numrecs) {il st su : List Int}
    (hil : il.length = (leadDims false hist).length) (hsu : f.layout.strides .subPt 1 = .ok su)
    (hst : st.length = f.layout.comps.length + ((subIdx f 0).length + 1))
    (haddr : ∀ cc s pc, InBox f.layout.comps cc → 0 ≤ s → s < f.layout.nbSub →
        dot st (cc ++ (subIdx f s ++ pc)) = dot su (cc ++ s :: pc))
    (offs : List Int) (ho : ∀ off ∈ offs, 0 ≤ off ∧ off < total) (i0 : Nat)
    (hlen : ((i0 + offs.length : Nat) : Int) ≤ n)
    {buf : Mem α} {val : List Int → Int → List Int → α} (hb : Holds f buf val)
    {fv : FileVar α} (hsh : fv.shape = leadShape false hist ++ (f.layout.comps.map some ++
      ((subIdx f f.layout.nbSub).map some ++ [some total]))) :
    ∃ buf' val', Var.getRequests (strideOf f hist) (il ++ st) fv numrecs
        (offs.map fun off => (startOf f hist fr k off, countOf f hist)) ((i0 : Int) * f.layout.nbDof) buf
          = .ok buf' ∧ Holds f buf' val' ∧ SameOutside f buf buf' ∧
      (∀ j (h : j < offs.length), ∀ cc s,
        val' cc s [((i0 + j : Nat) : Int)] =
          fv.data (filePos f (leadList false fr k hist) cc s [offs[j]])) ∧
      ∀ cc s i, (i < (i0 : Int) ∨ ((i0 + offs.length : Nat) : Int) ≤ i) →
        val' cc s [i] = val cc s [i] := by
  induction offs generalizing i0 buf val with
  | nil => exact ⟨buf, val, rfl, hb, ⟨su, hsu, fun _ _ => rfl⟩, by simp, fun _ _ _ _ => rfl⟩
  | cons off offs ih =>
    obtain ⟨h0, h1⟩ := ho off (by simp)
    simp only [List.length_cons] at hlen
    obtain ⟨b1, e1, e2, e3⟩ := getOne_spec (i := (i0 : Int)) hl (by omega) (by omega) hs hcol h0 h1 hfr hk
      hnr hil hsu hst haddr hb hsh
    obtain ⟨b2, v2, d1, d2, d3, d4, d5⟩ := ih (fun o h => ho o (by simp [h])) (i0 + 1) (by omega) e2
    refine ⟨b2, v2, ?_, d2, sameOutside_trans e3 d3, ?_, ?_⟩
    · rw [List.map_cons, Var.getRequests, e1, Res.ok_bind, countOf_size hs, ← d1]
      congr 1
      push_cast
      ring
    · intro j hj cc s
      cases j with
      | zero =>
        rw [d5 _ _ _ (Or.inl (by push_cast; omega))]
        simp
      | succ j =>
        have := d4 j (by simpa using hj) cc s
        rw [show i0 + (j + 1) = i0 + 1 + j by omega]
        simpa using this
    · intro cc s i hi
      simp only [List.length_cons] at hi
      rw [d5 cc s i (by omega), if_neg]
      intro h
      simp only [List.cons.injEq, and_true] at h
      omega

theorem varFrame_handle {nb frame fr : Int} (h : varFrame nb frame = .ok fr) :
    handleFrame frame nb = .ok fr ∧ 0 ≤ fr := by
  have h0 := varFrame_nonneg h
  rw [varFrame] at h
  obtain ⟨f', hf', h⟩ := Res.bind_eq_ok.1 h
  split at h
  · cases h
  · cases h; exact ⟨hf', h0⟩

theorem zip_map_map {β γ δ : Type} (l : List β) (g : β → γ) (h : β → δ) :
    (l.map g).zip (l.map h) = l.map fun x => (g x, h x) := by
  induction l with
  | nil => rfl
  | cons a l ih => simp [ih]

theorem writeLocal_spec {α : Type} (hv : IsLocalVar v vname f hist total) (hs : StorableShape vname f)
    {n : Int} (hl : LocalField f n) (hcol : f.layout.order = .colMajor ∨ f.layout.nbDof = 1)
    {marks : List Int} (hlen : ((Var.marked marks).length : Int) ≤ n) (hnd : (Var.marked marks).Nodup)
    (ho : ∀ off ∈ Var.marked marks, 0 ≤ off ∧ off < total)
    {nb frame fr : Int} {k : Nat} (hfr : varFrame nb frame = .ok fr) (hk : HistIdx k hist)
    {buf : Mem α} {val : List Int → Int → List Int → α} (hb : Holds f buf val)
    {fv : FileVar α} (hsh : fv.form = v.form) :
    ∃ fv', v.writeLocal nb frame k marks buf fv = .ok fv' ∧ fv'.form = fv.form ∧
      (∀ j (h : j < (Var.marked marks).length), ∀ cc s, InBox f.layout.comps cc → 0 ≤ s →
        s < f.layout.nbSub → fv'.data (filePos f (leadList false fr k hist) cc s [(Var.marked marks)[j]]) =
          val cc s [(j : Int)]) ∧
      ∀ y, (∀ off ∈ Var.marked marks, ∀ cc s, InBox f.layout.comps cc → 0 ≤ s → s < f.layout.nbSub →
          y ≠ filePos f (leadList false fr k hist) cc s [off]) → fv'.data y = fv.data y := by
  obtain ⟨hh, h0⟩ := varFrame_handle hfr
  obtain ⟨st, su, h1, h2, h3, h4⟩ := strides_iterUnit hs.order hs.sub_scalar
    (by rw [hl.shape, hl.strides]; rfl)
  rw [hl.shape] at h3
  obtain ⟨il, h5, h6⟩ := imapLocal_eq hv h1
  rw [Var.writeLocal, hh, Res.ok_bind, startLocal_eq hv hs h0, Res.ok_bind, countLocal_eq hv hs,
    Res.ok_bind, ncStrideLocal_eq hv hs, Res.ok_bind, h5, Res.ok_bind, sameType_ok hv.field hv.ty hsh, Res.ok_bind,
    zip_map_map]
  obtain ⟨su', g1, hb⟩ := hb
  rw [h2] at g1
  cases g1
  by_cases hn : 0 < n
  · have := putRequests_spec hl hn hs hcol h0 hk h6 h2 h3 h4 (buf := buf) (val := val)
      (Var.marked marks) hnd ho 0 (by
        intro j hj cc s hcc hs0 hs1
        exact hb cc s _ ((local_inField hl).2 ⟨hcc, hs0, hs1, _, by omega, by omega, rfl⟩))
      ((congrArg Prod.fst hsh).trans (fileShapeLocal_eq hv hs))
    simpa using this
  · have : Var.marked marks = [] := by
      apply List.eq_nil_of_length_eq_zero
      omega
    rw [this]
    exact ⟨fv, rfl, rfl, by simp, fun _ _ => rfl⟩

theorem readLocal_spec {α : Type} (hv : IsLocalVar v vname f hist total) (hs : StorableShape vname f)
    {n : Int} (hl : LocalField f n) (hcol : f.layout.order = .colMajor ∨ f.layout.nbDof = 1)
    {marks : List Int} (hlen : ((Var.marked marks).length : Int) ≤ n)
    (ho : ∀ off ∈ Var.marked marks, 0 ≤ off ∧ off < total)
    {nb frame fr numrecs : Int} {k : Nat} (hfr : varFrame nb frame = .ok fr) (hk : HistIdx k hist)
    (hnr : fr < numrecs) {buf : Mem α} {val : List Int → Int → List Int → α} (hb : Holds f buf val)
    {fv : FileVar α} (hsh : fv.form = v.form) :
    ∃ buf' val', v.readLocal nb frame k marks numrecs fv buf = .ok buf' ∧ Holds f buf' val' ∧
      SameOutside f buf buf' ∧
      (∀ j (h : j < (Var.marked marks).length), ∀ cc s, val' cc s [(j : Int)] =
        fv.data (filePos f (leadList false fr k hist) cc s [(Var.marked marks)[j]])) ∧
      ∀ cc s i, ((Var.marked marks).length : Int) ≤ i → val' cc s [i] = val cc s [i] := by
  obtain ⟨hh, h0⟩ := varFrame_handle hfr
  obtain ⟨st, su, h1, h2, h3, h4⟩ := strides_iterUnit hs.order hs.sub_scalar
    (by rw [hl.shape, hl.strides]; rfl)
  rw [hl.shape] at h3
  obtain ⟨il, h5, h6⟩ := imapLocal_eq hv h1
  rw [Var.readLocal, hh, Res.ok_bind, startLocal_eq hv hs h0, Res.ok_bind, countLocal_eq hv hs,
    Res.ok_bind, ncStrideLocal_eq hv hs, Res.ok_bind, h5, Res.ok_bind, sameType_ok hv.field hv.ty hsh, Res.ok_bind,
    zip_map_map]
  obtain ⟨buf', val', e1, e2, e3, e4, e5⟩ := getRequests_spec hl hs hcol h0 hk hnr h6 h2 h3 h4
      (Var.marked marks) ho 0 (by simpa using hlen) hb ((congrArg Prod.fst hsh).trans (fileShapeLocal_eq hv hs))
  refine ⟨buf', val', by simpa using e1, e2, e3, by simpa using e4, ?_⟩
  intro cc s i hi
  exact e5 cc s i (Or.inr (by simpa using hi))

end

/-! ### The entries for the local pixels -/

theorem markLoop_spec (ids : List Int) (hnd : ids.Nodup) (v : Int) (marks : List Int)
    (hin : ∀ id ∈ ids, 0 ≤ id ∧ id < marks.length) :
    ∃ m, markLoop ids v marks = .ok m ∧ m.length = marks.length ∧
      (∀ j (h : j < ids.length), m[ids[j].toNat]? = some (v + j)) ∧
      ∀ p : Nat, (p : Int) ∉ ids → m[p]? = marks[p]? := by
  induction ids generalizing v marks with
  | nil => exact ⟨marks, rfl, rfl, by simp, fun _ _ => rfl⟩
  | cons id ids ih =>
    rw [List.nodup_cons] at hnd
    have h0 := hin id (by simp)
    obtain ⟨m, e1, e2, e3, e4⟩ := ih hnd.2 (v + 1) (marks.set id.toNat v)
      (fun x hx => by simpa using hin x (by simp [hx]))
    refine ⟨m, ?_, by simpa using e2, ?_, ?_⟩
    · rw [markLoop, setMark, if_pos h0, Res.ok_bind, e1]
    · intro j hj
      cases j with
      | zero =>
        have : ((id.toNat : Nat) : Int) ∉ ids := by rw [Int.toNat_of_nonneg h0.1]; exact hnd.1
        have := e4 _ this
        simp only [List.getElem_cons_zero]
        rw [this, List.getElem?_set_self (by omega)]
        simp
      | succ j =>
        have := e3 j (by simpa using hj)
        simp only [List.getElem_cons_succ]
        rw [this]
        push_cast
        congr 1
        ring
    · intro p hp
      simp only [List.mem_cons, not_or] at hp
      rw [e4 p hp.2, List.getElem?_set_ne]
      omega

/-- The pixels of the collection in ascending order. -/
def sortedIds (size : Nat) (ids : List Int) : List Int :=
  ((List.range size).map fun (p : Nat) => (p : Int)).filter fun p => decide (p ∈ ids)

theorem mem_sortedIds {size : Nat} {ids : List Int} {p : Int} :
    p ∈ sortedIds size ids ↔ (0 ≤ p ∧ p < size) ∧ p ∈ ids := by
  simp only [sortedIds, List.mem_filter, List.mem_map, List.mem_range, decide_eq_true_eq]
  constructor
  · rintro ⟨⟨a, ha, rfl⟩, h⟩
    exact ⟨⟨by omega, by omega⟩, h⟩
  · rintro ⟨⟨h0, h1⟩, h⟩
    exact ⟨⟨p.toNat, by omega, by omega⟩, h⟩

theorem sortedIds_pairwise (size : Nat) (ids : List Int) : (sortedIds size ids).Pairwise (· < ·) := by
  refine List.Pairwise.filter _ ?_
  rw [List.pairwise_map]
  exact List.pairwise_lt_range.imp (fun h => by omega)

theorem sortedIds_of_sorted {size : Nat} {ids : List Int} (hs : ids.Pairwise (· < ·))
    (hin : ∀ id ∈ ids, 0 ≤ id ∧ id < (size : Int)) : sortedIds size ids = ids := by
  refine List.Perm.eq_of_pairwise (le := (· < ·)) ?_ (sortedIds_pairwise size ids) hs ?_
  · intro a b _ _ h1 h2
    omega
  · rw [List.perm_ext_iff_of_nodup]
    · intro a
      rw [mem_sortedIds]
      exact ⟨fun h => h.2, fun h => ⟨hin a h, h⟩⟩
    · exact (sortedIds_pairwise size ids).imp fun h => ne_of_lt h
    · exact hs.imp fun h => ne_of_lt h

theorem sortedIds_perm {size : Nat} {ids : List Int} (hnd : ids.Nodup)
    (hin : ∀ id ∈ ids, 0 ≤ id ∧ id < (size : Int)) : (sortedIds size ids).Perm ids := by
  rw [List.perm_ext_iff_of_nodup ((sortedIds_pairwise size ids).imp fun h => ne_of_lt h) hnd]
  intro a
  rw [mem_sortedIds]
  exact ⟨fun h => h.2, fun h => ⟨hin a h, h⟩⟩

/-- A list of entries, from its values at all pixels. -/
theorem marked_map (size : Nat) (ids : List Int) (g : Int → Int) (hg : ∀ p ∈ ids, g p ≠ -1)
    (hn : ∀ p, p ∉ ids → g p = -1) (marks : List Int) (hlen : marks.length = size)
    (h : ∀ p : Nat, p < size → marks[p]? = some (g p)) :
    Var.marked marks = (sortedIds size ids).map g := by
  have hm : marks = ((List.range size).map fun (p : Nat) => (p : Int)).map g := by
    apply List.ext_getElem?
    intro p
    by_cases hp : p < size
    · rw [h p hp]; simp [hp]
    · rw [List.getElem?_eq_none (by omega), List.getElem?_eq_none (by simp; omega)]
  rw [hm, Var.marked, sortedIds, List.filter_map]
  congr 1
  apply List.filter_congr
  intro p _
  by_cases hp : p ∈ ids
  · simp [hp, hg p hp]
  · simp [hp, hn p hp]

theorem markPixels_spec {size : Nat} {off : Int} {ids : List Int} (hnd : ids.Nodup) (h0 : 0 ≤ off)
    (hin : ∀ id ∈ ids, 0 ≤ id ∧ id < (size : Int)) :
    ∃ marks, markPixels size off ids = .ok marks ∧ marks.length = size ∧
      (∀ j (h : j < ids.length), marks[ids[j].toNat]? = some (off + j)) ∧
      (∀ p : Nat, p < size → (p : Int) ∉ ids → marks[p]? = some (-1)) ∧
      Var.marked marks = (sortedIds size ids).map fun p => off + (ids.idxOf p : Nat) := by
  obtain ⟨m, e1, e2, e3, e4⟩ := markLoop_spec ids hnd off (List.replicate size (-1)) (by simpa using hin)
  simp only [List.length_replicate] at e2
  have e5 : ∀ p : Nat, p < size → (p : Int) ∉ ids → m[p]? = some (-1) := by
    intro p hp hni
    rw [e4 p hni]
    simp [hp]
  refine ⟨m, e1, e2, e3, e5, ?_⟩
  rw [marked_map size ids (fun p => if p ∈ ids then off + (ids.idxOf p : Nat) else -1) ?_ ?_ m e2 ?_]
  · refine List.map_congr_left fun p hp => ?_
    rw [if_pos (mem_sortedIds.1 hp).2]
  · intro p hp
    rw [if_pos hp]
    omega
  · intro p hp
    rw [if_neg hp]
  · intro p hp
    by_cases hpi : (p : Int) ∈ ids
    · have := e3 _ (List.idxOf_lt_length_of_mem hpi)
      rw [List.getElem_idxOf] at this
      rw [if_pos hpi]
      simpa using this
    · rw [if_neg hpi]
      exact e5 p hp hpi

/-! ### What a successful registration says -/

theorem ncStride1_unclean (v : Var) (nm : String) (n : Int) (b : String)
    (hb : b = "tensor_dim" ∨ b = "subpt" ∨ b = "pts") (r : List Char)
    (h : (baseName nm).toList = b.toList ++ '_' :: r) :
    v.ncStride1 ⟨nm, n⟩ = .throw .fileIOError := by
  have key : ∀ s : String, s.toList ≠ b.toList ++ '_' :: r → baseName nm ≠ s := by
    rintro s hs rfl
    exact hs h
  have h1 := key "frame" (by rcases hb with rfl | rfl | rfl <;> simp)
  have h2 := key "history_index" (by rcases hb with rfl | rfl | rfl <;> simp)
  have h3 := key "nx" (by rcases hb with rfl | rfl | rfl <;> simp)
  have h4 := key "ny" (by rcases hb with rfl | rfl | rfl <;> simp)
  have h5 := key "nz" (by rcases hb with rfl | rfl | rfl <;> simp)
  have h6 := key "subpt" (by rcases hb with rfl | rfl | rfl <;> simp)
  have h7 := key "tensor_dim" (by rcases hb with rfl | rfl | rfl <;> simp)
  have h8 := key "pts" (by rcases hb with rfl | rfl | rfl <;> simp)
  simp [Var.ncStride1, gridAxis, h1, h2, h3, h4, h5, h6, h7, h8]

theorem registered_local {v : Var} {vname : String} {f : IoField} {hist : Option Nat} {total n : Int}
    {lname : String} {marks : List Int} (hf : LocalField f n)
    (ht : 0 < total) (h : registerLocalVar vname f hist total lname marks = .ok v) :
    IsLocalVar v vname f hist total ∧ StorableShape vname f := by
  obtain ⟨t, hty, h⟩ := Res.bind_eq_ok.1 h
  obtain ⟨u, hchk, h⟩ := Res.bind_eq_ok.1 h
  rw [Res.pure_eq, Res.ok.injEq] at h
  have hds : v.dims = localDims vname f hist total := by rw [← h]
  have hvf : v.field = f := by rw [← h]
  have hvh : v.hist = hist := by rw [← h]
  rw [h] at hchk
  clear h
  rw [Var.checkLocal] at hchk
  split at hchk
  · cases hchk
  obtain ⟨start, hst, hchk⟩ := Res.bind_eq_ok.1 hchk
  obtain ⟨count, hct, hchk⟩ := Res.bind_eq_ok.1 hchk
  obtain ⟨stride, hsd, hchk⟩ := Res.bind_eq_ok.1 hchk
  obtain ⟨imap, him, hchk⟩ := Res.bind_eq_ok.1 hchk
  split at hchk
  · cases hchk
  split at hchk
  case isFalse => cases hchk
  rename_i hlen
  have hll := hlen.2.2.1
  rw [Var.ncStride] at hsd
  have hsl := mapRes_length hsd
  have hdl : v.dims.length = (leadDims false hist).length + (f.layout.comps.length +
      ((subPtDims f).length + if total ≠ 0 then 1 else 0)) := by
    rw [hds, localDims, List.length_append, List.length_append, List.length_append, tensorDims_length]
    congr 3
    split <;> rfl
  have hfr : "frame" ∈ v.dims.map Dim.name := by
    rw [hds, localDims]; cases hist <;> simp [leadDims]
  have hil : ∃ s, f.layout.strides (if f.layout.nbComp = 1 then .pixel else .subPt) 1 = .ok s ∧
      imap.length = (leadDims false hist).length + s.length := by
    rw [Var.imapLocal, Var.iterUnit, hvf] at him
    obtain ⟨s, hs1, him⟩ := Res.bind_eq_ok.1 him
    refine ⟨s, hs1, ?_⟩
    rw [hvh] at him
    cases hist <;> simp only [cutImap_frame hfr, Res.ok.injEq] at him <;> rw [← him] <;>
      simp [leadDims] <;> omega
  obtain ⟨s, hs1, hil⟩ := hil
  have hal : f.layout.pixStrides.length = f.layout.pixShape.length := by rw [hf.shape, hf.strides]; rfl
  have hsub : f.layout.nbComp ≠ 1 → s.length = f.layout.comps.length + 2 := by
    intro hne
    rw [if_neg hne] at hs1
    rcases hf.order with ho | ho
    · rw [strides_col _ ho] at hs1; cases hs1
      simp [accStrides_length, hf.strides]
    · rw [strides_row _ ho] at hs1; cases hs1
      simp [accStrides_length, hf.strides]
  have hpix : f.layout.nbComp = 1 → s.length = f.layout.comps.length + 1 := by
    intro h1
    rw [if_pos h1] at hs1
    rw [strides_pixel_length hal hs1, hf.shape]; rfl
  have hsplen : (subPtDims f).length = if f.layout.nbSub ≠ 1 ∨ f.layout.nbComp ≠ 1 then 1 else 0 := by
    unfold subPtDims; split <;> rfl
  have ht0 : total ≠ 0 := by omega
  rw [if_pos ht0] at hdl
  have hsc : f.layout.nbComp = 1 → f.layout.nbSub = 1 := by
    intro h1
    by_contra h2
    have := hpix h1
    rw [hsplen, if_pos (Or.inl h2)] at hdl
    omega
  have hdims : v.dims = leadDims false hist ++ (tensorDims vname 0 f.layout.comps ++ (subPtDims f ++
      [⟨dimName "pts" vname, total⟩])) := by
    rw [hds, localDims, if_pos ht0]
  have hname : Clean vname := by
    by_contra hc
    by_cases hne : vname = ""
    · subst hne; exact hc (by decide)
    obtain ⟨r, hr⟩ := baseName_unclean (base := "pts") hne hc
    have hmem : (⟨dimName "pts" vname, total⟩ : Dim) ∈ v.dims := by
      rw [hdims]
      exact List.mem_append_right _ (List.mem_append_right _ (List.mem_append_right _ (by simp)))
    generalize dimName "pts" vname = nm at hr hmem
    obtain ⟨y, hy⟩ := mapRes_mem hsd hmem
    rw [ncStride1_unclean v nm _ "pts" (by simp) r hr] at hy
    cases hy
  have htag : f.layout.nbComp ≠ 1 → Clean f.tag := by
    intro hne
    by_contra hc
    obtain ⟨m, hm⟩ := Int.eq_ofNat_of_zero_le hf.sub_pos.le
    obtain ⟨r, hr⟩ := baseName_unclean (base := "subpt") (name_ne_empty f.tag m)
      (fun hcl => hc ((clean_name_iff f.tag m).1 hcl))
    have hmem : (⟨dimName "subpt" (f.tag ++ "-" ++ toString m), f.layout.nbSub⟩ : Dim) ∈ v.dims := by
      rw [hdims]
      refine List.mem_append_right _ (List.mem_append_right _ (List.mem_append_left _ ?_))
      rw [subPtDims, if_pos (Or.inr hne), hm]
      exact List.mem_singleton.2 rfl
    generalize dimName "subpt" (f.tag ++ "-" ++ toString m) = nm at hr hmem
    obtain ⟨y, hy⟩ := mapRes_mem hsd hmem
    rw [ncStride1_unclean v nm _ "subpt" (by simp) r hr] at hy
    cases hy
  exact ⟨⟨hvf, hvh, hdims, hname, ht0, ncTypeOf_ok hty⟩, hf.order, hf.comps_pos, hf.comps_len, hf.sub_pos, hsc,
    fun _ => hname, htag⟩

end Verif.NetCDF
