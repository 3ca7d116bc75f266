import Verif.Lemmas.GradientCells
import Verif.Props.FieldMap
import Verif.Props.Gradient
import Verif.Props.Grid
/-
Property C69: the gradient operator and its transpose on fields stored in collections.
-/
set_option linter.unusedSectionVars false

namespace Verif.Props
open Verif Verif.Ccoord Verif.Layout Verif.Collection Verif.Collection.Coll Verif.GradOp
open scoped BigOperators

variable {α U : Type} [CommRing α] [Inhabited α] [DecidableEq U]

/-! ### Memory of the fields -/

theorem dense_le : ∀ {nb s : List Int}, Dense nb s → ∀ k < nb.length, nb[k]?.getD 0 * s[k]?.getD 0 ≤ nb.prod
  | [], _, _, k, hk => by simp at hk
  | n :: nb, s :: ss, h, k, hk => by
      have hpos : 0 < n := h.1
      have hsz := Dense.size h.2.2
      have hs : s = nb.prod := by rw [← hsz]; exact h.2.1
      have hp : 0 < nb.prod := by
        rw [← hs, h.2.1]
        have := (Dense.sd h.2.2).maxIdx_nonneg
        omega
      cases k with
      | zero => simp [hs]
      | succ k =>
        have := dense_le h.2.2 k (by simpa using hk)
        simp only [List.getElem?_cons_succ, List.prod_cons]
        nlinarith

theorem bufferSizeAux_le {M : Int} : ∀ {nb ss : List Int} {acc : Int}, acc ≤ M → ss.length = nb.length →
    (∀ k < nb.length, nb[k]?.getD 0 * ss[k]?.getD 0 ≤ M) → bufferSizeAux acc nb ss ≤ M
  | [], _, _, h, _, _ => by simpa [bufferSizeAux] using h
  | _ :: _, [], _, h, _, _ => by simpa [bufferSizeAux] using h
  | n :: nb, s :: ss, acc, h, hl, hk => by
      simp only [bufferSizeAux]
      refine bufferSizeAux_le ?_ (by simpa using hl) ?_
      · have := hk 0 (by simp)
        simp at this
        omega
      · intro k hk'
        simpa using hk (k + 1) (by simpa using hk')

/-- Without gaps the buffer has one place per pixel. -/
theorem good_bufferSize {p : DynamicPixels} (h : p.Good) (hne : p.nb ≠ []) :
    getBufferSize p.nb p.strides = .ok p.nb.prod := by
  have hnest : NestedStrides p.nb p.strides :=
    ⟨h.strides_len, p.axes.reverse, (List.reverse_perm _).trans h.perm, h.dense.sd⟩
  obtain ⟨m, hm, hb⟩ := C05_buffer_size hnest hne
  rw [hm]
  congr 1
  have hpick : (pick p.axes.reverse p.nb).prod = p.nb.prod := pick_prod ((List.reverse_perm _).trans h.perm)
  apply le_antisymm
  · unfold getBufferSize at hm
    rw [if_neg (by simp [h.strides_len])] at hm
    cases hm
    have hpos : 0 ≤ p.nb.prod := by
      have := (h.dense.sd).maxIdx_nonneg
      have h2 := h.dense.size
      rw [hpick] at h2
      omega
    refine bufferSizeAux_le hpos h.strides_len ?_
    intro k hk
    have hmem : k ∈ p.axes.reverse := ((List.reverse_perm _).trans h.perm).mem_iff.2 (List.mem_range.2 hk)
    obtain ⟨j, hj, hjk⟩ := List.getElem_of_mem hmem
    have := dense_le h.dense j (by simpa [pick] using hj)
    rw [hpick] at this
    simpa only [pick, List.getElem?_map, List.getElem?_eq_getElem hj, hjk, Option.map_some, Option.getD_some] using this
  · by_contra hlt
    push Not at hlt
    obtain ⟨c, -, hc, hi⟩ := h.index (i := m) (by
      have := getBufferSize_nonneg hm
      omega) hlt
    rw [DynamicPixels.getIndex_of_inBox h.strides_len hc] at hi
    have hi' := Res.ok.inj hi
    have := (hb (sub c p.loc) ((inBoxAt_iff (InBoxAt.lengths hc).1 (InBoxAt.lengths hc).2).1 hc)).2
    omega

/-! ### What the theorems ask of a field -/

/-- `a` refers to the field `f` of the collection `c`: a collection a program can build, global and
initialised, with the pixels `p`. -/
structure Stored (srt : SortFn) (w : List (Coll α U)) (a : FieldAt) (c : Coll α U) (f : Field α U)
    (p : DynamicPixels) : Prop where
  coll : w[a.coll]? = some c
  field : c.fields.find a.name = some f
  built : Built srt c
  init : c.initialised = true
  glob : c.global = true
  pixels : c.pixels = p

/-- The same in a column-major collection. -/
structure Operand (srt : SortFn) (w : List (Coll α U)) (a : FieldAt) (c : Coll α U) (f : Field α U)
    (p : DynamicPixels) : Prop extends Stored srt w a c f p where
  order : c.order = .colMajor

theorem Operand.cell {srt : SortFn} {w : List (Coll α U)} {a : FieldAt} {c : Coll α U} {f : Field α U}
    {p : DynamicPixels} (h : Operand srt w a c f p) : Cell w a c f p := by
  have hs := h.built.size
  obtain ⟨s1, -, s3⟩ := hs.size h.init _ _ h.field
  refine ⟨h.coll, h.field, hs.wf.fields_sorted, h.init, h.glob, h.order, ?_, s3, h.pixels, hs.wf.comps _ _ h.field⟩
  unfold Coll.hasSub
  rw [hs.wf.tags _ _ h.field]
  simpa using s1

theorem Operand.nbBuf {srt : SortFn} {w : List (Coll α U)} {a : FieldAt} {c : Coll α U} {f : Field α U}
    {p : DynamicPixels} (h : Operand srt w a c f p) {dim : Nat} (hper : Periodic p dim) : c.nbBuf = p.nb.prod := by
  obtain ⟨-, -, -, -, hb, -⟩ := h.built.pix.glob h.glob h.init
  rw [h.pixels, good_bufferSize hper.good (by
    intro h0
    have h1 := hper.dim_eq
    have h2 := hper.dim_pos
    rw [h0] at h1
    simp at h1
    omega)] at hb
  exact (Res.ok.inj hb).symm

theorem prod_nonneg_of_periodic {p : DynamicPixels} {dim : Nat} (h : Periodic p dim) : 0 ≤ p.nb.prod := by
  have hsz := h.good.dense.size
  have h0 := (h.good.dense.sd).maxIdx_nonneg
  rw [pick_prod ((List.reverse_perm _).trans h.good.perm)] at hsz
  omega

theorem Operand.length {srt : SortFn} {w : List (Coll α U)} {a : FieldAt} {c : Coll α U} {f : Field α U}
    {p : DynamicPixels} (h : Operand srt w a c f p) {dim : Nat} (hper : Periodic p dim) {rows cols : Nat}
    (hk : f.nbComp * f.nbSub = ((rows * cols : Nat) : Int)) :
    f.vals.length = p.nb.prod.toNat * (rows * cols) + f.pad := by
  obtain ⟨-, s2, -⟩ := h.built.size.size h.init _ _ h.field
  rw [hk, h.nbBuf hper] at s2
  have h0 := prod_nonneg_of_periodic hper
  obtain ⟨n, hn⟩ := Int.eq_ofNat_of_zero_le h0
  rw [hn] at s2 ⊢
  simp only [Int.ofNat_eq_natCast, Int.toNat_natCast] at s2 ⊢
  have : ((f.vals.length : Int)) = ((n * (rows * cols) + f.pad : Nat) : Int) := by
    rw [s2]; push_cast; ring
  exact_mod_cast this

/-- Components and sub-points of the two fields fit the operator. -/
structure OperandShapes (op : GradOp α) (fn fq : Field α U) : Prop where
  comps : fq.nbComp = op.dim * fn.nbComp
  nodes : fn.nbSub = op.nbPixNodes
  quads : fq.nbSub = op.nbPixelQuad

theorem Operand.shapes {srt : SortFn} {w w' : List (Coll α U)} {nref qref : FieldAt} {cn cq : Coll α U}
    {fn fq : Field α U} {p : DynamicPixels} {op : GradOp α} (hn : Operand srt w nref cn fn p)
    (hq : Operand srt w' qref cq fq p) (hper : Periodic p op.dim) (hs : OperandShapes op fn fq) :
    Shapes op fn fq fn.nbComp.toNat p.nb.prod.toNat := by
  have h1 := hn.built.size.comp _ _ hn.field
  have hrow : ((fn.nbComp.toNat : Nat) : Int) = fn.nbComp := by omega
  have hc : fq.nbComp = op.dim * (fn.nbComp.toNat : Nat) := by rw [hrow]; exact hs.comps
  have hdn : fn.nbComp * fn.nbSub = ((fn.nbComp.toNat * op.nbPixNodes : Nat) : Int) := by
    rw [hs.nodes]; push_cast; rw [hrow]
  have hdq : fq.nbComp * fq.nbSub = ((fn.nbComp.toNat * op.nbGrad : Nat) : Int) := by
    rw [hc, hs.quads, nbPixelQuad, nbGrad]; push_cast; ring
  refine ⟨by omega, hrow.symm, hc, hs.nodes, hs.quads, ?_, ?_⟩
  · rw [hn.length hper hdn]; omega
  · rw [hq.length hper hdq]; omega

theorem toG_fits {op : GradOp α} {fn fq : Field α U} {rows n : Nat} (h : Shapes op fn fq rows n) :
    op.Fits (toG fn rows op.nbPixNodes n) (toG fq rows op.nbGrad n) := by
  have h1 := h.rows_pos
  refine ⟨rfl, rfl, ?_, ?_, ?_, ?_⟩
  · simp only [toG, h.compN, h.compQ, Int.toNat_natCast]
    exact_mod_cast Int.toNat_natCast (op.dim * rows)
  · simp only [toG, h.compN, Int.toNat_natCast]; omega
  · simp only [toG, h.subN, Int.toNat_natCast]
  · simp only [toG, h.subQ, Int.toNat_natCast]

theorem Shapes.withN {op : GradOp α} {fn fq : Field α U} {rows n : Nat} (h : Shapes op fn fq rows n) {l : List α}
    (hl : l.length = fn.vals.length) : Shapes op (fn.withVals l) fq rows n :=
  ⟨h.rows_pos, h.compN, h.compQ, h.subN, h.subQ, by simpa [hl] using h.sizeN, h.sizeQ⟩

theorem Shapes.withQ {op : GradOp α} {fn fq : Field α U} {rows n : Nat} (h : Shapes op fn fq rows n) {l : List α}
    (hl : l.length = fq.vals.length) : Shapes op fn (fq.withVals l) rows n :=
  ⟨h.rows_pos, h.compN, h.compQ, h.subN, h.subQ, h.sizeN, by simpa [hl] using h.sizeQ⟩

theorem toG_zero {f : Field α U} {rows cols n : Nat} :
    toG (f.withVals (List.replicate f.vals.length 0)) rows cols n = (toG f rows cols n).setZero := by
  simp only [toG, GField.setZero, GField.mk.injEq, true_and]
  funext k r c
  rw [List.getElem?_replicate]
  split <;> rfl

theorem onlyValues_upd {w : List (Coll α U)} {o : FieldAt} {c : Coll α U} {f : Field α U}
    (hw : w[o.coll]? = some c) (hf : c.fields.find o.name = some f) {l : List α} (hl : l.length = f.vals.length) :
    OnlyValues o w (upd w o c f l) := by
  obtain ⟨hlt, hc⟩ := List.getElem?_eq_some_iff.1 hw
  refine ⟨by simp, ?_, ?_, ?_⟩
  · intro i h h'
    by_cases hi : o.coll = i
    · subst hi
      simp only [List.getElem_set_self, sameFrame, hc]
    · rw [List.getElem_set_ne hi]
      rfl
  · intro a ha
    unfold FieldAt.find
    by_cases hi : o.coll = a.coll
    · rw [← hi, hw]
      have hne : a.name ≠ o.name := by
        intro hn
        apply ha
        cases a; cases o
        simp_all
      simp only [List.getElem?_set_self hlt]
      exact SMap.find_insert_ne _ _ hne
    · rw [List.getElem?_set_ne hi]
  · intro f0 hf0
    unfold FieldAt.find at hf0 ⊢
    rw [hw] at hf0
    simp only [hf, Option.some.injEq] at hf0
    subst hf0
    refine ⟨f.withVals l, ?_, rfl, hl⟩
    simp only [List.getElem?_set_self hlt]
    exact SMap.find_insert_self _ _ _

/-! ### C69 -/

/-- Application of the gradient: outcome, values and what else changes, in terms of the loops on functions. -/
theorem gradientF_ok {srt : SortFn} {op : GradOp α} {w : List (Coll α U)} {nref qref : FieldAt}
    {cn cq : Coll α U} {fn fq : Field α U} {p : DynamicPixels} (hper : Periodic p op.dim)
    (hn : Operand srt w nref cn fn p) (hq : Operand srt w qref cq fq p) (hne : nref ≠ qref)
    (hs : OperandShapes op fn fq) {g : GField α}
    (hg : op.applyGradient srt p (toG fn fn.nbComp.toNat op.nbPixNodes p.nb.prod.toNat)
      (toG fq fn.nbComp.toNat op.nbGrad p.nb.prod.toNat) = (.ok (), g)) :
    ∃ l, op.applyGradientF srt w nref qref = (.ok (), upd w qref cq fq l) ∧ l.length = fq.vals.length ∧
      RepVals l fn.nbComp.toNat op.nbGrad p.nb.prod.toNat g.val ∧
      ∀ pos, p.nb.prod.toNat * (fn.nbComp.toNat * op.nbGrad) ≤ pos →
        l[pos]? = (List.replicate fq.vals.length (0 : α))[pos]? := by
  have hsh := hn.shapes hq hper hs
  have hcn := hn.cell
  have hcq := hq.cell
  have hz : (List.replicate fq.vals.length (0 : α)).length = fq.vals.length := by simp
  obtain ⟨cn', hcn'⟩ := hcq.upd_other hne hcn (List.replicate fq.vals.length 0)
  have hcq' := hcq.upd_self (List.replicate fq.vals.length 0)
  unfold applyGradient at hg
  split at hg
  case h_2 => cases hg
  case h_3 => cases hg
  rename_i g' hg'
  cases hg
  rw [← toG_zero] at hg'
  obtain ⟨w', hw', -, l, rfl, h2, h3, h4⟩ := gradientF_refines hne hcn' hcq' (Shapes.withQ hsh hz) hg'
  refine ⟨l, ?_, by simpa using h2, h3, h4⟩
  unfold applyGradientF zeroThen
  simp only [zeroField_ok hcq, hw']
  rw [show upd (upd w qref cq fq (List.replicate fq.vals.length 0)) qref
      (cq.withField qref.name (fq.withVals (List.replicate fq.vals.length 0)))
      (fq.withVals (List.replicate fq.vals.length 0)) l = upd w qref cq fq l from
    upd_upd hcq.sorted fq _ l]

/-- **C69** The gradient of a stored field: with the fields in column-major global collections of the same
(gap-free) grid starting at the origin, the call succeeds; it leaves every other field and all data of the
collections as they were; and at quadrature point `q` of element `e` of the pixel at `x`, the component
with number `componentNo cc + (number of components) * d` has the derivative in direction `d` of component
`cc`: `∑ᵢ ∂N_{q,e}(d, i) · u(cc, node i of e, x + corner of node i of e)`, with the pixel taken modulo the
grid.  Values are read and written at the places given by the strides of the fields. -/
theorem C69_gradient {srt : SortFn} (hsrt : SortSpec srt) {dim nbQuad nbElem nbElemNodes nbPixNodes : Nat}
    {shape : List (List (Mat α))} {nodalPts : List (List Int × Mat Int)} {op : GradOp α}
    (hop : make dim nbQuad nbElem nbElemNodes nbPixNodes shape nodalPts = .ok op)
    (hv : ValidNodes nodalPts dim nbElem nbElemNodes nbPixNodes)
    {p : DynamicPixels} (hper : Periodic p dim) {w : List (Coll α U)} {nref qref : FieldAt}
    {cn cq : Coll α U} {fn fq : Field α U} (hn : Operand srt w nref cn fn p) (hq : Operand srt w qref cq fq p)
    (hne : nref ≠ qref) (hs : OperandShapes op fn fq) {u : List Int → Int → List Int → α}
    (hu : ∀ cc (j : Int) x, InBox fn.shape cc → 0 ≤ j → j < nbPixNodes → InBoxAt p.nb p.loc x →
      valueAt cn fn cc j x = some (u cc j x)) :
    ∃ w', op.applyGradientF srt w nref qref = (.ok (), w') ∧ OnlyValues qref w w' ∧
      ∀ cq' fq', w'[qref.coll]? = some cq' → cq'.fields.find qref.name = some fq' →
      ∀ x, InBoxAt p.nb p.loc x → ∀ e < nbElem, ∀ q < nbQuad, ∀ d < dim, ∀ cc cc',
        InBox fn.shape cc → InBox fq.shape cc' →
        componentNo fq.shape cc' = componentNo fn.shape cc + fn.nbComp * d →
        valueAt cq' fq' cc' ((e * nbQuad + q : Nat) : Int) x =
          some (∑ i ∈ Finset.range nbElemNodes, shapeGrad shape q e d i *
            u cc (nodeOf nodalPts e i) (wrap p.nb x (cornerOf nodalPts dim e i))) := by
  obtain ⟨h1, h2, h3, -, h5, -⟩ := make_ok hop
  have hper' : Periodic p op.dim := by rw [h1]; exact hper
  have hsh := hn.shapes hq hper' hs
  have hfit := toG_fits hsh
  obtain ⟨g, hg, hshape, hval⟩ := C55_gradient hsrt hop hv hper hfit rfl rfl
    (U := fun x r j => (toG fn fn.nbComp.toNat op.nbPixNodes p.nb.prod.toNat).val (num p x).toNat r j)
    (fun x k hx hk r j => by
      have := getIndex_num hper hx
      rw [hk] at this
      have := Res.ok.inj this
      simp only [show (num p x).toNat = k by omega])
  obtain ⟨l, hl1, hl2, hl3, -⟩ := gradientF_ok hper' hn hq hne hs hg
  refine ⟨_, hl1, onlyValues_upd hq.coll hq.field hl2, ?_⟩
  intro cq' fq' hcq' hfq' x hx e he q hq' d hd cc cc' hcc hcc' hno
  have hc' := hq.cell.upd_self l
  rw [hc'.at_] at hcq'
  cases hcq'
  rw [hc'.find] at hfq'
  cases hfq'
  obtain ⟨b1, b2⟩ := componentNo_bounds hcc
  have hnum := hper.num_bounds hx
  have hfnc : fn.nbComp = fn.shape.prod := by rw [hn.cell.comps, getSize_eq_prod]
  have hrow : ((fn.nbComp.toNat : Nat) : Int) = fn.nbComp := hsh.compN.symm
  have hr : (componentNo fn.shape cc).toNat < fn.nbComp.toNat := by omega
  have heq : e * nbQuad + q < op.nbPixelQuad := by
    rw [nbPixelQuad, h2, h3]
    calc e * nbQuad + q < e * nbQuad + nbQuad := by omega
      _ = (e + 1) * nbQuad := by ring
      _ ≤ nbElem * nbQuad := Nat.mul_le_mul_right _ he
      _ = nbQuad * nbElem := by ring
  have hcol : dim * (e * nbQuad + q) + d < op.nbGrad := by
    have : op.nbGrad = dim * op.nbPixelQuad := by rw [nbGrad, nbPixelQuad, h1]; ring
    rw [this]
    calc dim * (e * nbQuad + q) + d < dim * (e * nbQuad + q) + dim := by omega
      _ = dim * (e * nbQuad + q + 1) := by ring
      _ ≤ dim * op.nbPixelQuad := Nat.mul_le_mul_left _ heq
  have hnumc : num (cq.withField qref.name (fq.withVals l)).pixels x = num p x := by
    show num cq.pixels x = _
    rw [hq.pixels]
  rw [valueAt_eq (c := cq.withField qref.name (fq.withVals l)) (f := fq.withVals l) hc'.glob hc'.order hc'.fresh
    hc'.comps hcc' (by omega) (x := x) (by show 0 ≤ fq.nbSub; rw [hsh.subQ]; omega) (by rw [hnumc]; exact hnum.1),
    hnumc]
  simp only
  rw [hno]
  have hidx : (num p x * (fq.nbComp * fq.nbSub) + ((((e * nbQuad + q : Nat) : Int)) * fq.nbComp +
      (componentNo fn.shape cc + fn.nbComp * d))).toNat =
      (num p x).toNat * (fn.nbComp.toNat * op.nbGrad) +
        ((dim * (e * nbQuad + q) + d) * fn.nbComp.toNat + (componentNo fn.shape cc).toNat) := by
    have hn0 : num p x = (((num p x).toNat : Nat) : Int) := by omega
    have hc0 : componentNo fn.shape cc = (((componentNo fn.shape cc).toNat : Nat) : Int) := by omega
    rw [hsh.dofQ, hsh.compQ, h1]
    generalize (componentNo fn.shape cc).toNat = C at *
    generalize (num p x).toNat = N at *
    generalize fn.nbComp.toNat = R at *
    rw [hn0, hc0, ← hrow]
    rw [show ((N : Int) * ((R * op.nbGrad : Nat) : Int) + (((e * nbQuad + q : Nat) : Int) *
      ((dim : Int) * ((R : Nat) : Int)) + ((C : Int) + ((R : Nat) : Int) * (d : Int)))) =
      ((N * (R * op.nbGrad) + ((dim * (e * nbQuad + q) + d) * R + C) : Nat) : Int) by
        push_cast; ring]
    exact Int.toNat_natCast _
  rw [hidx, hl3 _ (by omega) _ hcol _ hr, hval x (num p x).toNat hx (getIndex_num hper hx) e he q hq' d hd]
  congr 1
  refine Finset.sum_congr rfl fun i hi => ?_
  obtain ⟨⟨n0, n1⟩, hcor⟩ := hv e he i (Finset.mem_range.1 hi)
  have hwx := hper.wrap_inBox hx (o := cornerOf nodalPts dim e i) (by simp [cornerOf])
  have hval2 := hu cc (nodeOf nodalPts e i) _ hcc n0 n1 hwx
  have hnw := hper.num_bounds hwx
  rw [valueAt_eq hn.glob hn.order hn.cell.fresh hn.cell.comps hcc n0 (by rw [hsh.subN]; omega)
    (by rw [hn.pixels]; exact hnw.1), hn.pixels] at hval2
  congr 1
  show (fn.vals[_]?).getD 0 = _
  have hidx2 : (num p (wrap p.nb x (cornerOf nodalPts dim e i)) * (fn.nbComp * fn.nbSub) +
      (nodeOf nodalPts e i * fn.nbComp + componentNo fn.shape cc)).toNat =
      (num p (wrap p.nb x (cornerOf nodalPts dim e i))).toNat * (fn.nbComp.toNat * op.nbPixNodes) +
        ((nodeOf nodalPts e i).toNat * fn.nbComp.toNat + (componentNo fn.shape cc).toNat) := by
    rw [hsh.dofN]
    generalize fn.nbComp.toNat = R at *
    rw [← hrow]
    generalize num p (wrap p.nb x (cornerOf nodalPts dim e i)) = M at *
    generalize nodeOf nodalPts e i = J at *
    generalize componentNo fn.shape cc = C at *
    obtain ⟨M', rfl⟩ := Int.eq_ofNat_of_zero_le hnw.1
    obtain ⟨J', rfl⟩ := Int.eq_ofNat_of_zero_le n0
    obtain ⟨C', rfl⟩ := Int.eq_ofNat_of_zero_le b1
    simp only [Int.ofNat_eq_natCast, Int.toNat_natCast]
    rw [show ((M' : Int) * ((R * op.nbPixNodes : Nat) : Int) + ((J' : Int) * (R : Int) + (C' : Int))) =
      ((M' * (R * op.nbPixNodes) + (J' * R + C') : Nat) : Int) by push_cast; ring]
    exact Int.toNat_natCast _
  rw [← hidx2, hval2]
  rfl

end Verif.Props
