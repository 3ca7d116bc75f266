import Verif.Spec.Collective
import Verif.Lemmas.FileCheck
/-
Registration on two processes, step by step.
-/
namespace Verif.NetCDF
open Verif Verif.Ccoord Verif.Layout Verif.FileIO

/-! ### Outcomes that agree -/

/-- Both return, with related results, or both fail in the same way. -/
inductive ResRel {α β : Type} (P : α → β → Prop) : Res α → Res β → Prop
  | ok {a : α} {b : β} : P a b → ResRel P (.ok a) (.ok b)
  | throw (e : Err) : ResRel P (.throw e) (.throw e)
  | ub : ResRel P .ub .ub

theorem ResRel.bind {α β γ δ : Type} {P : α → β → Prop} {Q : γ → δ → Prop} {r : Res α} {r' : Res β} {k : α → Res γ}
    {k' : β → Res δ} (h : ResRel P r r') (hk : ∀ a b, P a b → ResRel Q (k a) (k' b)) : ResRel Q (r >>= k) (r' >>= k') := by
  cases h with
  | ok hp => exact hk _ _ hp
  | throw e => exact .throw e
  | ub => exact .ub

theorem ResRel.refl {α : Type} {P : α → α → Prop} (hP : ∀ a, P a a) (r : Res α) : ResRel P r r := by
  cases r with
  | ok a => exact .ok (hP a)
  | throw e => exact .throw e
  | ub => exact .ub

theorem ResRel.eq {r r' : Res Unit} {P : Unit → Unit → Prop} (h : ResRel P r r') : r = r' := by
  cases h <;> rfl

theorem at!_rel {l l' : List Int} (h : l.length = l'.length) (i : Nat) : ResRel (fun _ _ => True) (at! l i) (at! l' i) := by
  by_cases hi : i < l.length
  · rw [at!_eq_ok hi, at!_eq_ok (h ▸ hi)]
    exact .ok trivial
  · have h1 : l[i]? = none := by simp; omega
    have h2 : l'[i]? = none := by simp; omega
    simp only [at!, h1, h2]
    exact .ub

theorem mapRes_rel {β : Type} {g g' : β → Res Int} {l : List β} (h : ∀ x, ResRel (fun _ _ => True) (g x) (g' x)) :
    ResRel (fun a b => a.length = b.length) (mapRes g l) (mapRes g' l) := by
  induction l with
  | nil => exact .ok rfl
  | cons x l ih =>
    rw [mapRes, mapRes]
    refine (h x).bind fun a b _ => ih.bind fun as bs hl => .ok ?_
    simpa using hl

/-! ### The checks of a variable -/

/-- Two processes have the same variable. -/
structure Var.Alike (v w : Var) : Prop where
  name : v.name = w.name
  field : v.field.Alike w.field
  hist : v.hist = w.hist
  dims : v.dims = w.dims
  hidden : v.hidden = w.hidden
  localName : v.localName = w.localName

theorem IoField.Alike.nbComp {f g : IoField} (h : f.Alike g) : f.layout.nbComp = g.layout.nbComp := by
  rw [FieldLayout.nbComp, FieldLayout.nbComp, h.comps]

theorem IoField.Alike.subPtDims {f g : IoField} (h : f.Alike g) : NetCDF.subPtDims f = NetCDF.subPtDims g := by
  rw [NetCDF.subPtDims, NetCDF.subPtDims, h.nbComp, h.nbSub, h.tag]

/-- The strides of a field of known storage order: as many as there are directions. -/
theorem strides_known {f : IoField} (ho : f.layout.order = .colMajor ∨ f.layout.order = .rowMajor) (it : IterUnit) :
    ∃ s, f.layout.strides it 1 = .ok s ∧
      s.length = f.layout.comps.length + (if it = .subPt then 1 else 0) + f.layout.pixStrides.length := by
  rcases ho with ho | ho <;> cases it <;>
    simp [FieldLayout.strides, FieldLayout.subPtStrides, FieldLayout.componentsStrides, ho, FieldLayout.accStrides_length,
      FieldLayout.pixelsStrides] <;> omega

theorem strides_rel {f g : IoField} (h : f.Alike g) (it : IterUnit) :
    ResRel (fun a b => a.length = b.length) (f.layout.strides it 1) (g.layout.strides it 1) := by
  obtain ⟨s, h1, h2⟩ := strides_known h.order it
  obtain ⟨t, h3, h4⟩ := strides_known h.order' it
  rw [h1, h3]
  exact .ok (by rw [h2, h4, h.comps, h.strides_length])

theorem cutImap_rel {v w : Var} (h : v.Alike w) {a b : List Int} (hl : a.length = b.length) :
    ResRel (fun a b => a.length = b.length) (v.cutImap a) (w.cutImap b) := by
  rw [Var.cutImap, Var.cutImap, h.dims, hl]
  split
  · exact .ok hl
  · split
    · exact .ub
    · exact .ok (by simp [hl])

theorem iterUnit_eq {v w : Var} (h : v.Alike w) : v.iterUnit = w.iterUnit := by
  rw [Var.iterUnit, Var.iterUnit, h.field.nbComp]

theorem imapGlobal_rel {v w : Var} (h : v.Alike w) :
    ResRel (fun a b => a.length = b.length) v.imapGlobal w.imapGlobal := by
  rw [Var.imapGlobal, Var.imapGlobal, iterUnit_eq h, h.hist]
  refine (strides_rel h.field _).bind fun a b hl => ?_
  cases w.hist with
  | none => exact cutImap_rel h (by simp [hl])
  | some m => exact cutImap_rel h (by simp [hl])

theorem imapLocal_rel {v w : Var} (h : v.Alike w) :
    ResRel (fun a b => a.length = b.length) v.imapLocal w.imapLocal := by
  rw [Var.imapLocal, Var.imapLocal, iterUnit_eq h, h.hist]
  refine (strides_rel h.field _).bind fun a b hl => ?_
  cases w.hist with
  | none => exact cutImap_rel h (by simp [hl])
  | some m => exact cutImap_rel h (by simp [hl])

theorem ncStride_same {v w : Var} (h : v.Alike w) : v.ncStride = w.ncStride := by
  have : v.ncStride1 = w.ncStride1 := by
    funext d
    rw [Var.ncStride1, Var.ncStride1, h.hist]
  rw [Var.ncStride, Var.ncStride, this, h.dims]

theorem checkGlobal_same {v w : Var} (h : v.Alike w) : v.checkGlobal = w.checkGlobal := by
  rw [Var.checkGlobal, Var.checkGlobal, h.field.isGlobal]
  split
  · rfl
  · refine ResRel.eq (P := fun _ _ => True) ?_
    refine ResRel.bind (P := fun a b => a.length = b.length) ?_ fun a b hab => ?_
    · rw [Var.startGlobal, Var.startGlobal, if_neg (by decide), if_neg (by decide), h.dims]
      refine mapRes_rel fun d => ?_
      rw [Var.startGlobal1, Var.startGlobal1, h.hist, h.field.isGlobal]
      split
      · exact .ok trivial
      · split
        · exact .ok trivial
        · split
          · split
            · exact at!_rel h.field.loc_length _
            · exact .throw _
          · split
            · exact .ok trivial
            · split
              · exact .ok trivial
              · exact .throw _
    · refine ResRel.bind (P := fun a b => a.length = b.length) ?_ fun c d hcd => ?_
      · rw [Var.countGlobal, Var.countGlobal, h.dims]
        refine mapRes_rel fun d => ?_
        rw [Var.countGlobal1, Var.countGlobal1, h.field.isGlobal, h.field.nbSub, h.field.comps]
        split
        · exact .ok trivial
        · split
          · exact .ok trivial
          · split
            · split
              · exact at!_rel h.field.shape_length _
              · exact .throw _
            · exact ResRel.refl (fun _ => trivial) _
      · refine ResRel.bind (P := fun a b => a.length = b.length) ?_ fun e f hef => ?_
        · rw [ncStride_same h]
          exact ResRel.refl (P := fun a b : List Int => a.length = b.length) (fun _ => rfl) _
        · refine (imapGlobal_rel h).bind fun i j hij => ?_
          rw [hab, hcd, hef, hij]
          exact ResRel.refl (fun _ => trivial) _

/-! ### The check of a local variable does not depend on the pixels of the process -/

theorem baseName_head {full : String} {c : Char} {l : List Char} (h : full.toList = c :: l) :
    (baseName full).toList = [] ∨ ∃ r, (baseName full).toList = c :: r := by
  rw [baseName]
  split
  · rename_i p _
    rw [String.toList_ofList, h]
    cases p with
    | zero => exact .inl rfl
    | succ p => exact .inr ⟨_, rfl⟩
  · exact .inr ⟨l, h⟩

theorem baseName_ne {full base : String} {c b : Char} {l m : List Char} (h : full.toList = c :: l)
    (hb : base.toList = b :: m) (hcb : c ≠ b) : baseName full ≠ base := by
  rintro rfl
  rcases baseName_head h with h1 | ⟨r, h1⟩ <;> rw [hb] at h1 <;> cases h1
  exact hcb rfl

theorem dimName_head {base suffix : String} {c : Char} {l : List Char} (h : base.toList = c :: l) :
    ∃ m, (dimName base suffix).toList = c :: m := by
  rw [dimName]
  split
  · exact ⟨l, h⟩
  · exact ⟨_, by rw [String.toList_append, String.toList_append, h]; rfl⟩

/-- A dimension is known to all three functions, or to none. -/
def KnownAlike (v : Var) (d : Dim) : Prop :=
  (∀ off, ∃ a b c, v.startLocal1 0 0 off d = .ok a ∧ v.countLocal1 d = .ok b ∧ v.ncStride1 d = .ok c) ∨
  (∀ off, v.startLocal1 0 0 off d = .throw .fileIOError) ∧ v.ncStride1 d = .throw .fileIOError

theorem known_tensor_dim {v : Var} {nm : String} {n : Int} {m : List Char} (hm : nm.toList = 't' :: m) {i : Nat} (hi : i < v.field.layout.comps.length)
    (hidx : tensorDimIndex nm = .ok i) : KnownAlike v ⟨nm, n⟩ := by
  have h_frame : baseName nm ≠ "frame" := baseName_ne hm (b := 'f') (m := "rame".toList) (by decide) (by decide)
  have h_history_index : baseName nm ≠ "history_index" := baseName_ne hm (b := 'h') (m := "istory_index".toList) (by decide) (by decide)
  have h_pts : baseName nm ≠ "pts" := baseName_ne hm (b := 'p') (m := "ts".toList) (by decide) (by decide)
  have h_subpt : baseName nm ≠ "subpt" := baseName_ne hm (b := 's') (m := "ubpt".toList) (by decide) (by decide)
  have h_nx : baseName nm ≠ "nx" := baseName_ne hm (b := 'n') (m := "x".toList) (by decide) (by decide)
  have h_ny : baseName nm ≠ "ny" := baseName_ne hm (b := 'n') (m := "y".toList) (by decide) (by decide)
  have h_nz : baseName nm ≠ "nz" := baseName_ne hm (b := 'n') (m := "z".toList) (by decide) (by decide)
  by_cases hb : baseName nm = "tensor_dim"
  · refine .inl fun off => ⟨0, v.field.layout.comps[i], 1, ?_, ?_, ?_⟩
    · simp [Var.startLocal1, hb]
    · simp [Var.countLocal1, hb, hidx, at!_eq_ok hi]
    · simp [Var.ncStride1, hb, gridAxis]
  · refine .inr ⟨fun off => ?_, ?_⟩
    · simp [Var.startLocal1, hb, h_frame, h_history_index, h_pts, h_subpt]
    · simp [Var.ncStride1, gridAxis, hb, h_frame, h_history_index, h_pts, h_subpt, h_nx, h_ny, h_nz]

theorem known_subpt {v : Var} {nm : String} {n : Int} {m : List Char} (hm : nm.toList = 's' :: m) : KnownAlike v ⟨nm, n⟩ := by
  have h_frame : baseName nm ≠ "frame" := baseName_ne hm (b := 'f') (m := "rame".toList) (by decide) (by decide)
  have h_history_index : baseName nm ≠ "history_index" := baseName_ne hm (b := 'h') (m := "istory_index".toList) (by decide) (by decide)
  have h_pts : baseName nm ≠ "pts" := baseName_ne hm (b := 'p') (m := "ts".toList) (by decide) (by decide)
  have h_tensor_dim : baseName nm ≠ "tensor_dim" := baseName_ne hm (b := 't') (m := "ensor_dim".toList) (by decide) (by decide)
  have h_nx : baseName nm ≠ "nx" := baseName_ne hm (b := 'n') (m := "x".toList) (by decide) (by decide)
  have h_ny : baseName nm ≠ "ny" := baseName_ne hm (b := 'n') (m := "y".toList) (by decide) (by decide)
  have h_nz : baseName nm ≠ "nz" := baseName_ne hm (b := 'n') (m := "z".toList) (by decide) (by decide)
  by_cases hb : baseName nm = "subpt"
  · refine .inl fun off => ⟨0, v.field.layout.nbSub, 1, ?_, ?_, ?_⟩
    · simp [Var.startLocal1, hb]
    · simp [Var.countLocal1, hb]
    · simp [Var.ncStride1, hb, gridAxis]
  · refine .inr ⟨fun off => ?_, ?_⟩
    · simp [Var.startLocal1, hb, h_frame, h_history_index, h_pts, h_tensor_dim]
    · simp [Var.ncStride1, gridAxis, hb, h_frame, h_history_index, h_pts, h_tensor_dim, h_nx, h_ny, h_nz]

theorem known_pts {v : Var} {nm : String} {n : Int} {m : List Char} (hm : nm.toList = 'p' :: m) : KnownAlike v ⟨nm, n⟩ := by
  have h_frame : baseName nm ≠ "frame" := baseName_ne hm (b := 'f') (m := "rame".toList) (by decide) (by decide)
  have h_history_index : baseName nm ≠ "history_index" := baseName_ne hm (b := 'h') (m := "istory_index".toList) (by decide) (by decide)
  have h_subpt : baseName nm ≠ "subpt" := baseName_ne hm (b := 's') (m := "ubpt".toList) (by decide) (by decide)
  have h_tensor_dim : baseName nm ≠ "tensor_dim" := baseName_ne hm (b := 't') (m := "ensor_dim".toList) (by decide) (by decide)
  have h_nx : baseName nm ≠ "nx" := baseName_ne hm (b := 'n') (m := "x".toList) (by decide) (by decide)
  have h_ny : baseName nm ≠ "ny" := baseName_ne hm (b := 'n') (m := "y".toList) (by decide) (by decide)
  have h_nz : baseName nm ≠ "nz" := baseName_ne hm (b := 'n') (m := "z".toList) (by decide) (by decide)
  by_cases hb : baseName nm = "pts"
  · refine .inl fun off => ⟨off, 1, 1, ?_, ?_, ?_⟩
    · simp [Var.startLocal1, hb]
    · simp [Var.countLocal1, hb]
    · simp [Var.ncStride1, hb, gridAxis]
  · refine .inr ⟨fun off => ?_, ?_⟩
    · simp [Var.startLocal1, hb, h_frame, h_history_index, h_subpt, h_tensor_dim]
    · simp [Var.ncStride1, gridAxis, hb, h_frame, h_history_index, h_subpt, h_tensor_dim, h_nx, h_ny, h_nz]

theorem tensorDimIndex_dim (vname : String) {i : Nat} (hi : i ≤ 2147483647) :
    tensorDimIndex (dimName "tensor_dim" (vname ++ "-" ++ toString i)) = .ok i := by
  rw [tensorDimIndex, toList_dimName (Props.name_ne_empty vname i)]
  have e : "tensor_dim".toList ++ '_' :: '_' :: (vname ++ "-" ++ toString i).toList =
      ("tensor_dim".toList ++ '_' :: '_' :: vname.toList) ++ '-' :: (toString i).toList := by
    rw [String.toList_append, String.toList_append]; simp
  rw [e, afterLastDash_append _ _ (dash_notMem i)]
  exact stoi_toString i hi

theorem known_all {v : Var} {vname : String} {total : Int} (hl : v.field.layout.comps.length ≤ 2147483647)
    (hd : v.dims = localDims vname v.field v.hist total) : ∀ d ∈ v.dims, KnownAlike v d := by
  intro d hm
  rw [hd, localDims, List.mem_append, List.mem_append, List.mem_append] at hm
  rcases hm with hm | hm | hm | hm
  · cases hh : v.hist with
    | none =>
      rw [hh, leadDims, if_neg (by simp), List.mem_singleton] at hm
      subst hm
      refine .inl fun off => ⟨0, 1, 1, ?_, ?_, ?_⟩
      · simp [Var.startLocal1, base_frame]
      · simp [Var.countLocal1, base_frame]
      · simp [Var.ncStride1, base_frame]
    | some k =>
      rw [hh, leadDims, List.mem_cons, List.mem_singleton] at hm
      rcases hm with rfl | rfl
      · refine .inl fun off => ⟨0, 1, 1, ?_, ?_, ?_⟩
        · simp [Var.startLocal1, base_frame]
        · simp [Var.countLocal1, base_frame]
        · simp [Var.ncStride1, base_frame]
      · have hb := base_history (k + 1)
        generalize "history_index__" ++ toString (k + 1) = nm at hb
        refine .inl fun off => ⟨0, 1, (k : Int) + 1, ?_, ?_, ?_⟩
        · simp [Var.startLocal1, hb, hh]
        · simp [Var.countLocal1, hb]
        · simp [Var.ncStride1, hb, hh]
  · obtain ⟨i, n, hi, -, rfl⟩ := mem_tensorDims hm
    obtain ⟨m, hm⟩ := dimName_head (base := "tensor_dim") (suffix := vname ++ "-" ++ toString i) (c := 't')
      (l := "ensor_dim".toList) (by decide)
    exact known_tensor_dim hm (by omega) (tensorDimIndex_dim vname (by omega))
  · rw [subPtDims] at hm
    split at hm
    · rw [List.mem_singleton] at hm
      subst hm
      obtain ⟨m, hm⟩ := dimName_head (base := "subpt") (suffix := v.field.tag ++ "-" ++ toString v.field.layout.nbSub)
        (c := 's') (l := "ubpt".toList) (by decide)
      exact known_subpt hm
    · cases hm
  · split at hm
    · rw [List.mem_singleton] at hm
      subst hm
      obtain ⟨m, hm⟩ := dimName_head (base := "pts") (suffix := vname) (c := 'p') (l := "ts".toList) (by decide)
      exact known_pts hm
    · cases hm

theorem mapRes_some {β : Type} {g : β → Res Int} {l : List β} (h : ∀ x ∈ l, ∃ a, g x = .ok a) :
    ∃ r, mapRes g l = .ok r ∧ r.length = l.length := by
  induction l with
  | nil => exact ⟨[], rfl, rfl⟩
  | cons x l ih =>
    obtain ⟨a, ha⟩ := h x (by simp)
    obtain ⟨r, h1, h2⟩ := ih fun y hy => h y (by simp [hy])
    exact ⟨a :: r, by rw [mapRes, ha, Res.ok_bind, h1]; rfl, by simp [h2]⟩

theorem mapRes_throws {β γ : Type} {g : β → Res γ} {l : List β} {e : Err}
    (h : ∀ x ∈ l, (∃ a, g x = .ok a) ∨ g x = .throw e) (hx : ∃ x ∈ l, g x = .throw e) : mapRes g l = .throw e := by
  induction l with
  | nil => obtain ⟨x, hx, -⟩ := hx; cases hx
  | cons y l ih =>
    rw [mapRes]
    rcases h y (by simp) with ⟨a, ha⟩ | hy
    · obtain ⟨x, hx, hxe⟩ := hx
      rw [ha, Res.ok_bind, ih (fun z hz => h z (by simp [hz])) ?_]
      · rfl
      · rcases List.mem_cons.1 hx with rfl | hx
        · rw [ha] at hxe; cases hxe
        · exact ⟨x, hx, hxe⟩
    · rw [hy]; rfl

/-- The check does not look at the entries of the pixels. -/
theorem checkLocal_marks {v : Var} {vname : String} {total : Int} (hl : v.field.layout.comps.length ≤ 2147483647)
    (hd : v.dims = localDims vname v.field v.hist total) (marks : List Int) : v.checkLocal marks = v.checkLocal [] := by
  have hk := known_all hl hd
  by_cases hall : ∀ d ∈ v.dims, ∃ c, v.ncStride1 d = .ok c
  · have hgood : ∀ d ∈ v.dims, ∀ off, ∃ a b c, v.startLocal1 0 0 off d = .ok a ∧ v.countLocal1 d = .ok b ∧
        v.ncStride1 d = .ok c := by
      intro d hm
      rcases hk d hm with h | ⟨-, h⟩
      · exact h
      · obtain ⟨c, hc⟩ := hall d hm
        rw [h] at hc; cases hc
    obtain ⟨st, hst, hstl⟩ := mapRes_some hall
    have hstart : ∀ ms : List Int, ∃ r, mapRes (fun off => mapRes (v.startLocal1 0 0 off) v.dims) ms = .ok r ∧
        r.flatten.length = ms.length * v.dims.length := by
      intro ms
      induction ms with
      | nil => exact ⟨[], rfl, by simp⟩
      | cons m ms ih =>
        obtain ⟨r, h1, h2⟩ := ih
        obtain ⟨a, h3, h4⟩ := mapRes_some (g := v.startLocal1 0 0 m) (l := v.dims) fun d hm => by
          obtain ⟨a, -, -, ha, -⟩ := hgood d hm m
          exact ⟨a, ha⟩
        refine ⟨a :: r, by rw [mapRes, h3, Res.ok_bind, h1]; rfl, ?_⟩
        rw [List.flatten_cons, List.length_append, h4, h2, List.length_cons, Nat.add_mul]
        omega
    have hcount : ∀ ms : List Int, ∃ r, mapRes (fun _ => mapRes v.countLocal1 v.dims) ms = .ok r ∧
        r.flatten.length = ms.length * v.dims.length := by
      intro ms
      induction ms with
      | nil => exact ⟨[], rfl, by simp⟩
      | cons m ms ih =>
        obtain ⟨r, h1, h2⟩ := ih
        obtain ⟨a, h3, h4⟩ := mapRes_some (g := v.countLocal1) (l := v.dims) fun d hm => by
          obtain ⟨-, a, -, -, ha, -⟩ := hgood d hm m
          exact ⟨a, ha⟩
        refine ⟨a :: r, by rw [mapRes, h1, h3]; rfl, ?_⟩
        rw [List.flatten_cons, List.length_append, h4, h2, List.length_cons, Nat.add_mul]
        omega
    obtain ⟨r1, e1, l1⟩ := hstart (Var.marked marks)
    obtain ⟨r2, e2, l2⟩ := hcount (Var.marked marks)
    have hst' : v.ncStride = .ok st := hst
    have en : Var.marked [] = [] := rfl
    rw [Var.checkLocal, Var.checkLocal]
    split
    · rfl
    · rw [Var.startLocal, Var.startLocal, if_neg (by decide), if_neg (by decide), Var.countLocal, Var.countLocal, e1, e2,
        hst', en]
      simp only [mapRes, Res.ok_bind, Res.pure_eq]
      congr 1
      funext im
      rw [l1, l2, hstl]
      simp
  · have hex : ∃ d ∈ v.dims, (∀ off, v.startLocal1 0 0 off d = .throw .fileIOError) ∧
        v.ncStride1 d = .throw .fileIOError := by
      by_contra hne
      refine hall fun d hm => ?_
      rcases hk d hm with h | h
      · obtain ⟨-, -, c, -, -, hc⟩ := h 0
        exact ⟨c, hc⟩
      · exact absurd ⟨d, hm, h⟩ hne
    have hstart : ∀ off, mapRes (v.startLocal1 0 0 off) v.dims = .throw .fileIOError := by
      intro off
      obtain ⟨d, hm, h1, -⟩ := hex
      refine mapRes_throws (fun x hx => ?_) ⟨d, hm, h1 off⟩
      rcases hk x hx with h | h
      · obtain ⟨a, -, -, ha, -⟩ := h off
        exact .inl ⟨a, ha⟩
      · exact .inr (h.1 off)
    have hstride : v.ncStride = .throw .fileIOError := by
      obtain ⟨d, hm, -, h1⟩ := hex
      refine mapRes_throws (fun x hx => ?_) ⟨d, hm, h1⟩
      rcases hk x hx with h | h
      · obtain ⟨-, -, a, -, -, ha⟩ := h 0
        exact .inl ⟨a, ha⟩
      · exact .inr h.2
    rw [Var.checkLocal, Var.checkLocal]
    split
    · rfl
    · rw [Var.startLocal, Var.startLocal, if_neg (by decide), if_neg (by decide), Var.countLocal, Var.countLocal, hstride]
      cases hm : Var.marked marks with
      | nil => rfl
      | cons m ms =>
        simp only [mapRes, hstart, Res.throw_bind]
        rfl

theorem checkLocal_same {v w : Var} (h : v.Alike w) {vname : String} {total : Int}
    (hd : v.dims = localDims vname v.field v.hist total) (hd' : w.dims = localDims vname w.field w.hist total)
    (marks marks' : List Int) : v.checkLocal marks = w.checkLocal marks' := by
  rw [checkLocal_marks h.field.comps_len hd, checkLocal_marks (h.field.comps ▸ h.field.comps_len) hd']
  rw [Var.checkLocal, Var.checkLocal, h.field.isGlobal]
  split
  · rfl
  · rw [ncStride_same h]
    refine ResRel.eq (P := fun _ _ => True) ?_
    refine ResRel.bind (P := fun a b => a = b) ?_ fun a b hab => ?_
    · exact ResRel.refl (fun _ => rfl) _
    · refine ResRel.bind (P := fun a b => a = b) ?_ fun c d hcd => ?_
      · exact ResRel.refl (fun _ => rfl) _
      · refine ResRel.bind (P := fun a b => a = b) (ResRel.refl (fun _ => rfl) _) fun e f hef => ?_
        refine (imapLocal_rel h).bind fun i j hij => ?_
        rw [hab, hcd, hef, hij]
        exact ResRel.refl (fun _ => trivial) _

end Verif.NetCDF
