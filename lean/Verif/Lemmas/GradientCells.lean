import Verif.Lemmas.GradientField
import Verif.Lemmas.GradientGrid
import Verif.Lemmas.Address
import Verif.Spec.GradientField
/-! Lemmas: fields the gradient operator can be applied to, and the addresses of their elements. -/
set_option linter.unusedSectionVars false

namespace Verif
open Verif.Ccoord Verif.Layout Verif.Collection Verif.GradOp
open scoped BigOperators

variable {α U : Type}

/-! ### Addresses -/

theorem dot_accStrides : ∀ {shape cc : List Int} (acc : Int), InBox shape cc →
    dot (FieldLayout.accStrides acc shape) cc = acc * componentNo shape cc
  | [], [], _, _ => by simp [FieldLayout.accStrides, dot, componentNo]
  | n :: shape, c :: cc, acc, h => by
      simp only [FieldLayout.accStrides, dot, componentNo, dot_accStrides (acc * n) h.2.2]
      ring
  | [], _ :: _, _, h => by simp [InBox] at h
  | _ :: _, [], _, h => by simp [InBox] at h

theorem componentNo_bounds : ∀ {shape cc : List Int}, InBox shape cc →
    0 ≤ componentNo shape cc ∧ componentNo shape cc < shape.prod
  | [], [], _ => by simp [componentNo]
  | n :: shape, c :: cc, h => by
      obtain ⟨h1, h2, h3⟩ := h
      obtain ⟨i1, i2⟩ := componentNo_bounds h3
      simp only [componentNo, List.prod_cons]
      constructor
      · nlinarith
      · nlinarith
  | [], _ :: _, h => by simp [InBox] at h
  | _ :: _, [], h => by simp [InBox] at h

theorem accStrides_len : ∀ (acc : Int) (s : List Int), (FieldLayout.accStrides acc s).length = s.length
  | _, [] => rfl
  | acc, n :: s => by simp [FieldLayout.accStrides, accStrides_len (acc * n) s]

theorem inBox_length : ∀ {nb c : List Int}, InBox nb c → c.length = nb.length
  | [], [], _ => rfl
  | _ :: nb, _ :: c, h => by simp [inBox_length h.2.2]
  | [], _ :: _, h => by simp [InBox] at h
  | _ :: _, [], h => by simp [InBox] at h

/-- Place of an element of a column-major field of a global collection. -/
theorem valueAt_eq {c : Coll α U} {f : Field α U} (hg : c.global = true) (ho : c.order = .colMajor)
    (hfr : f.fresh = true) (hc : f.nbComp = getSize f.shape) {cc : List Int} (hcc : InBox f.shape cc)
    {s : Int} (hs : 0 ≤ s) {x : List Int} (hns : 0 ≤ f.nbSub) (hnum : 0 ≤ num c.pixels x) :
    valueAt c f cc s x =
      f.vals[(num c.pixels x * (f.nbComp * f.nbSub) + (s * f.nbComp + componentNo f.shape cc)).toNat]? := by
  have hb := componentNo_bounds hcc
  have hnc : 0 ≤ f.nbComp := by
    rw [hc, getSize_eq_prod]; omega
  unfold valueAt
  have hst : (c.layout f).strides .subPt 1 =
      .ok ((FieldLayout.accStrides 1 f.shape ++ [f.nbComp]) ++ c.pixels.strides.map (· * (f.nbComp * f.nbSub))) := by
    simp only [FieldLayout.strides, FieldLayout.subPtStrides, FieldLayout.componentsStrides, Coll.layout, ho,
      Res.ok_bind, Res.pure_eq, FieldLayout.nbComp, FieldLayout.pixelsStrides, hg, if_true, mul_one, ← hc,
      FieldLayout.nbDof, List.map_id']
  rw [hst]
  simp only
  have hd : dot ((FieldLayout.accStrides 1 f.shape ++ [f.nbComp]) ++
        c.pixels.strides.map (· * (f.nbComp * f.nbSub)))
      (cc ++ s :: List.zipWith (· - ·) x c.pixels.loc) =
      num c.pixels x * (f.nbComp * f.nbSub) + (s * f.nbComp + componentNo f.shape cc) := by
    rw [List.append_assoc, dot_append (by rw [accStrides_len, inBox_length hcc]), dot_accStrides 1 hcc]
    simp only [List.singleton_append, dot, dot_map_mul]
    show _ = dot c.pixels.strides (List.zipWith (· - ·) x c.pixels.loc) * _ + _
    ring
  rw [hd]
  unfold Coll.Field.mem
  have h1 := mul_nonneg hnum (mul_nonneg hnc hns)
  have h2 := mul_nonneg hs hnc
  rw [if_pos ⟨hfr, by omega⟩]

namespace GradOp
variable [CommRing α] [Inhabited α] [DecidableEq U]

/-- The field `a` is the field `f` of the column-major global collection `c` with the pixels `p`, and has its
memory. -/
structure Cell (w : List (Coll α U)) (a : FieldAt) (c : Coll α U) (f : Field α U) (p : DynamicPixels) : Prop where
  at_ : w[a.coll]? = some c
  find : c.fields.find a.name = some f
  sorted : c.fields.Sorted
  init : c.initialised = true
  glob : c.global = true
  order : c.order = .colMajor
  sub : c.hasSub f.tag = true
  fresh : f.fresh = true
  pix : c.pixels = p
  comps : f.nbComp = getSize f.shape

theorem Cell.upd_self {w : List (Coll α U)} {o : FieldAt} {c : Coll α U} {f : Field α U} {p : DynamicPixels}
    (h : Cell w o c f p) (l : List α) :
    Cell (upd w o c f l) o (c.withField o.name (f.withVals l)) (f.withVals l) p := by
  have hlt : o.coll < w.length := (List.getElem?_eq_some_iff.1 h.at_).1
  refine ⟨?_, SMap.find_insert_self _ _ _, SMap.sorted_insert h.sorted _ _, h.init, h.glob, h.order, h.sub, h.fresh,
    h.pix, h.comps⟩
  simp [hlt]

theorem Cell.upd_other {w : List (Coll α U)} {o i : FieldAt} (hio : i ≠ o) {c ci : Coll α U} {f fi : Field α U}
    {p : DynamicPixels} (h : Cell w o c f p) (hi : Cell w i ci fi p) (l : List α) :
    ∃ ci', Cell (upd w o c f l) i ci' fi p := by
  have hlt : i.coll < w.length := (List.getElem?_eq_some_iff.1 hi.at_).1
  by_cases hc : i.coll = o.coll
  · have hcc : c = ci := by
      have h1 := hi.at_
      rw [hc, h.at_] at h1
      exact Option.some.inj h1
    subst hcc
    have hne : i.name ≠ o.name := by
      intro hn
      apply hio
      cases i; cases o
      simp_all
    refine ⟨c.withField o.name (f.withVals l), ?_, ?_, SMap.sorted_insert h.sorted _ _, h.init, h.glob, h.order,
      hi.sub, hi.fresh, h.pix, hi.comps⟩
    · have hlt' : o.coll < w.length := hc ▸ hlt
      rw [hc]; simp [hlt']
    · show (c.fields.insert o.name _).find i.name = _
      rw [SMap.find_insert_ne _ _ hne]
      exact hi.find
  · refine ⟨ci, ?_, hi.find, hi.sorted, hi.init, hi.glob, hi.order, hi.sub, hi.fresh, hi.pix, hi.comps⟩
    rw [List.getElem?_set_ne (fun h => hc h.symm)]
    exact hi.at_

/-- The pixel map with `rows` rows. -/
def cellMap (a : FieldAt) (rows cols : Nat) : FieldMap :=
  ⟨a.name, .pixel, rows * cols, rows, cols, true⟩

theorem Cell.map {w : List (Coll α U)} {a : FieldAt} {c : Coll α U} {f : Field α U} {p : DynamicPixels}
    (h : Cell w a c f p) {rows cols n : Nat} (hr : 1 ≤ rows) (hk : f.nbComp * f.nbSub = ((rows * cols : Nat) : Int))
    (hsz : n * (rows * cols) ≤ f.vals.length) :
    FieldMap.mkRows c a.name rows .pixel = .ok (cellMap a rows cols) ∧
      Mapped w a (cellMap a rows cols) c f rows cols n := by
  constructor
  · unfold FieldMap.mkRows
    have hdiv : (((rows * cols : Nat) : Int)).tdiv rows = cols := by
      rw [Nat.cast_mul]
      exact Int.mul_tdiv_cancel_left _ (by omega)
    simp only [h.find, FieldMap.fieldStride, h.sub, if_true, Res.ok_bind, hk, hdiv]
    rw [if_neg (by omega), if_neg (by simp [h.order]), if_neg (by simp)]
    simp [cellMap, h.init]
  · exact ⟨h.at_, ⟨h.find, rfl, h.fresh, by simp [cellMap], by simp [cellMap], by simp [cellMap],
      by simp [cellMap]⟩, rfl, rfl, rfl, hsz, h.sorted⟩

theorem Cell.get {w : List (Coll α U)} {a : FieldAt} {c : Coll α U} {f : Field α U} {p : DynamicPixels}
    (h : Cell w a c f p) : a.get w = .ok (c, f) := by
  obtain ⟨hlt, hc⟩ := List.getElem?_eq_some_iff.1 h.at_
  unfold FieldAt.get
  rw [at!_eq_ok hlt, hc, Res.ok_bind, h.find]
  rfl

/-- A field as the loops on functions see it. -/
def toG (f : Field α U) (rows cols n : Nat) : GField α :=
  ⟨true, f.nbComp.toNat, f.nbSub.toNat, n, fun k r c => (f.vals[k * (rows * cols) + (c * rows + r)]?).getD 0⟩

theorem toG_rep {f : Field α U} {rows cols n : Nat} (hsz : n * (rows * cols) ≤ f.vals.length) :
    RepVals f.vals rows cols n (toG f rows cols n).val := by
  intro k hk c hc r hr
  have hp := entry_pos (cols := cols) hc hr
  have h1 := Nat.mul_le_mul_right (rows * cols) (show k + 1 ≤ n from hk)
  have e : (k + 1) * (rows * cols) = k * (rows * cols) + rows * cols := by ring
  have : k * (rows * cols) + (c * rows + r) < f.vals.length := by omega
  simp [toG, this]

/-- Sizes and shapes of nodal and quadrature-point field fit the operator. -/
structure Shapes (op : GradOp α) (fn fq : Field α U) (rows n : Nat) : Prop where
  rows_pos : 1 ≤ rows
  compN : fn.nbComp = rows
  compQ : fq.nbComp = op.dim * rows
  subN : fn.nbSub = op.nbPixNodes
  subQ : fq.nbSub = op.nbPixelQuad
  sizeN : n * (rows * op.nbPixNodes) ≤ fn.vals.length
  sizeQ : n * (rows * op.nbGrad) ≤ fq.vals.length

theorem Shapes.dofN {op : GradOp α} {fn fq : Field α U} {rows n : Nat} (h : Shapes op fn fq rows n) :
    fn.nbComp * fn.nbSub = ((rows * op.nbPixNodes : Nat) : Int) := by
  rw [h.compN, h.subN]; push_cast; rfl

theorem Shapes.dofQ {op : GradOp α} {fn fq : Field α U} {rows n : Nat} (h : Shapes op fn fq rows n) :
    fq.nbComp * fq.nbSub = ((rows * op.nbGrad : Nat) : Int) := by
  rw [h.compQ, h.subQ, nbPixelQuad, nbGrad]; push_cast; ring

theorem prepare_ok {op : GradOp α} {w : List (Coll α U)} {nref qref : FieldAt} {cn cq : Coll α U}
    {fn fq : Field α U} {p : DynamicPixels} {rows n : Nat} (hn : Cell w nref cn fn p) (hq : Cell w qref cq fq p)
    (hs : Shapes op fn fq rows n) :
    op.prepare w nref qref = .ok (cellMap nref rows op.nbPixNodes, cellMap qref rows op.nbGrad, p) := by
  unfold prepare
  simp only [hn.get, hq.get, Res.ok_bind, hn.glob, hq.glob]
  rw [if_neg (by simp), if_neg (by simp), if_neg (by rw [hs.compN, hs.compQ]; simp)]
  have h1 := (hn.map hs.rows_pos hs.dofN hs.sizeN).1
  have h2 := (hq.map hs.rows_pos hs.dofQ hs.sizeQ).1
  rw [hs.compN]
  simp only [h1, h2, Res.ok_bind, Res.pure_eq, hq.pix]

theorem gradientF_refines {srt : SortFn} {op : GradOp α} {w : List (Coll α U)} {nref qref : FieldAt}
    (hne : nref ≠ qref) {cn cq : Coll α U} {fn fq : Field α U} {p : DynamicPixels} {rows n : Nat}
    (hn : Cell w nref cn fn p) (hq : Cell w qref cq fq p) (hs : Shapes op fn fq rows n) {a : α} {g : GField α}
    (h : op.gradientIncrement srt p (toG fn rows op.nbPixNodes n) a (toG fq rows op.nbGrad n) = .ok g) :
    ∃ w', op.gradientIncrementF srt w nref a qref = .ok w' ∧ Rel w qref cq fq rows op.nbGrad n w' g := by
  unfold gradientIncrement at h
  split at h
  · cases h
  split at h
  · cases h
  split at h
  · cases h
  split at h
  · cases h
  obtain ⟨offs, ho, h⟩ := Res.bind_eq_ok.1 h
  obtain ⟨px, hpx, h⟩ := Res.bind_eq_ok.1 h
  obtain ⟨w', h1, h2⟩ := gradLoop_sim hne (hn.map hs.rows_pos hs.dofN hs.sizeN).2
    (hq.map hs.rows_pos hs.dofQ hs.sizeQ).2 rfl rfl (toG_rep hs.sizeN) (toG_rep hs.sizeQ) h
  refine ⟨w', ?_, h2⟩
  unfold gradientIncrementF
  simp only [prepare_ok hn hq hs, Res.ok_bind, ho, hpx]
  exact h1

theorem transposeF_refines {srt : SortFn} {op : GradOp α} {w : List (Coll α U)} {nref qref : FieldAt}
    (hne : nref ≠ qref) {cn cq : Coll α U} {fn fq : Field α U} {p : DynamicPixels} {rows n : Nat}
    (hn : Cell w nref cn fn p) (hq : Cell w qref cq fq p) (hs : Shapes op fn fq rows n) {a : α} {g : GField α}
    {ws : List α}
    (h : op.transposeIncrement srt p (toG fq rows op.nbGrad n) a (toG fn rows op.nbPixNodes n) ws = .ok g) :
    ∃ w', op.transposeIncrementF srt w qref a nref ws = .ok w' ∧ Rel w nref cn fn rows op.nbPixNodes n w' g := by
  unfold transposeIncrement at h
  simp only at h
  split at h
  · cases h
  split at h
  · cases h
  split at h
  · cases h
  split at h
  · cases h
  obtain ⟨offs, ho, h⟩ := Res.bind_eq_ok.1 h
  obtain ⟨px, hpx, h⟩ := Res.bind_eq_ok.1 h
  obtain ⟨w', h1, h2⟩ := transLoop_sim hne (hn.map hs.rows_pos hs.dofN hs.sizeN).2
    (hq.map hs.rows_pos hs.dofQ hs.sizeQ).2 rfl rfl (toG_rep hs.sizeN) (toG_rep hs.sizeQ) h
  refine ⟨w', ?_, h2⟩
  unfold transposeIncrementF
  simp only [prepare_ok hn hq hs, Res.ok_bind, ho, hpx]
  exact h1

theorem zeroField_ok {w : List (Coll α U)} {a : FieldAt} {c : Coll α U} {f : Field α U} {p : DynamicPixels}
    (h : Cell w a c f p) :
    zeroField w a = .ok (upd w a c f (List.replicate f.vals.length 0)) := by
  unfold zeroField
  simp only [h.get, Res.ok_bind, Res.pure_eq]

end GradOp
end Verif
