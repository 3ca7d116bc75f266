import Verif.Spec.GradientMean
import Verif.Props.GradientTranspose
/-
Property C93: the discretised gradient as a finite element gradient.  Linear functions are differentiated
exactly, gradients of periodic fields have zero mean, and the transposed operator yields balanced forces.
-/
set_option linter.unusedSectionVars false

namespace Verif.Props
open Verif Verif.Ccoord Verif.Layout Verif.Collection Verif.Collection.Coll Verif.GradOp
open scoped BigOperators

/-- A displacement which stays in the grid is not wrapped. -/
theorem wrap_inside {p : DynamicPixels} {dim : Nat} (hper : Periodic p dim) {x o : List Int}
    (hx : InBoxAt p.nb p.loc (List.zipWith (· + ·) x o)) : wrap p.nb x o = List.zipWith (· + ·) x o := by
  have hb := (periodic_inBox hper).1 hx
  clear hx hper
  generalize p.nb = nb at *
  induction nb generalizing x o with
  | nil =>
    cases x with
    | nil => simp [wrap]
    | cons a x => cases o with
      | nil => simp [wrap]
      | cons b o => simp [InBox] at hb
  | cons n nb ih =>
    cases x with
    | nil => simp [InBox] at hb
    | cons a x =>
      cases o with
      | nil => simp [InBox] at hb
      | cons b o =>
        obtain ⟨h1, h2, h3⟩ := hb
        have h := ih h3
        simp only [wrap] at h
        simp only [wrap, List.zipWith_cons_cons, h, List.cons.injEq, and_true]
        exact Int.emod_eq_of_lt h1 h2

variable {α U : Type} [CommRing α] [Inhabited α] [DecidableEq U]

/-- The pixel with a given number. -/
theorem Periodic.pixel {p : DynamicPixels} {dim : Nat} (hper : Periodic p dim) {k : Nat}
    (hk : k < p.nb.prod.toNat) : ∃ x, InBoxAt p.nb p.loc x ∧ num p x = k := by
  obtain ⟨x, -, hx, hxk⟩ := hper.good.index (i := (k : Int)) (by omega) (by omega)
  refine ⟨x, hx, ?_⟩
  have := getIndex_num hper hx
  rw [hxk] at this
  have := Res.ok.inj this
  have := (hper.num_bounds hx).1
  omega

theorem num_inj {p : DynamicPixels} {dim : Nat} (hper : Periodic p dim) {x y : List Int}
    (hx : InBoxAt p.nb p.loc x) (hy : InBoxAt p.nb p.loc y) (h : num p x = num p y) : x = y := by
  obtain ⟨i, h1, -, -, h4⟩ := hper.good.coord hx
  obtain ⟨i', h1', -, -, h4'⟩ := hper.good.coord hy
  rw [getIndex_num hper hx, h, ← getIndex_num hper hy, h1'] at h1
  cases Res.ok.inj h1
  rw [h4] at h4'
  exact Res.ok.inj h4'

/-- Summing over the whole periodic grid, a displacement does not matter. -/
theorem sum_wrap {p : DynamicPixels} {dim : Nat} (hper : Periodic p dim) (X : Nat → List Int)
    (hX : ∀ k < p.nb.prod.toNat, InBoxAt p.nb p.loc (X k) ∧ num p (X k) = k) {o : List Int} (ho : o.length = dim)
    (F : List Int → α) :
    ∑ k ∈ Finset.range p.nb.prod.toNat, F (wrap p.nb (X k) o) = ∑ k ∈ Finset.range p.nb.prod.toNat, F (X k) := by
  have hneg : (o.map (fun b => -b)).length = dim := by simpa using ho
  have hol : o.length = p.nb.length := by rw [ho, hper.dim_eq]
  have key : ∀ {o : List Int}, o.length = dim → ∀ k < p.nb.prod.toNat,
      (num p (wrap p.nb (X k) o)).toNat < p.nb.prod.toNat ∧
        X (num p (wrap p.nb (X k) o)).toNat = wrap p.nb (X k) o := by
    intro o ho k hk
    have hb := hper.wrap_inBox (hX k hk).1 ho
    have hn := hper.num_bounds hb
    have hlt : (num p (wrap p.nb (X k) o)).toNat < p.nb.prod.toNat := by omega
    refine ⟨hlt, num_inj hper (hX _ hlt).1 hb ?_⟩
    rw [(hX _ hlt).2]
    omega
  refine Finset.sum_nbij' (fun k => (num p (wrap p.nb (X k) o)).toNat)
    (fun k => (num p (wrap p.nb (X k) (o.map (fun b => -b)))).toNat) ?_ ?_ ?_ ?_ ?_
  · intro k hk
    exact Finset.mem_range.2 (key ho k (Finset.mem_range.1 hk)).1
  · intro k hk
    exact Finset.mem_range.2 (key hneg k (Finset.mem_range.1 hk)).1
  · intro k hk
    have hk' := Finset.mem_range.1 hk
    rw [(key ho k hk').2, wrap_add_neg hper.origin (hX k hk').1 hol, (hX k hk').2]
    rfl
  · intro k hk
    have hk' := Finset.mem_range.1 hk
    rw [(key hneg k hk').2, wrap_neg_add hper.origin (hX k hk').1 hol, (hX k hk').2]
    rfl
  · intro k hk
    rw [(key ho k (Finset.mem_range.1 hk)).2]

/-- Differentiating a linear function with gradients that are exact for linear functions, at a pixel whose
nodes are all in the grid. -/
theorem affine_value {dim nbQuad nbElem nbElemNodes : Nat} {shape : List (List (Mat α))}
    {nodalPts : List (List Int × Mat Int)} {h : Nat → α} {ξ : Nat → Nat → α}
    (hl : Linear shape nodalPts dim nbQuad nbElem nbElemNodes h ξ) (a : Nat → Nat → α) (b : Nat → α)
    {x : List Int} (hx : x.length = dim) {e q d : Nat} (he : e < nbElem) (hq : q < nbQuad) (hd : d < dim) (r : Nat) :
    ∑ i ∈ Finset.range nbElemNodes, shapeGrad shape q e d i *
      affine dim a b h ξ (List.zipWith (· + ·) x (cornerOf nodalPts dim e i)) r (nodeOf nodalPts e i).toNat = a r d := by
  have hpos : ∀ i, ∀ c < dim, nodePos h ξ (List.zipWith (· + ·) x (cornerOf nodalPts dim e i))
      (nodeOf nodalPts e i).toNat c =
      h c * (((x[c]?).getD 0 : Int) : α) + nodePos h ξ (cornerOf nodalPts dim e i) (nodeOf nodalPts e i).toNat c := by
    intro i c hc
    have hcl : (cornerOf nodalPts dim e i).length = dim := by simp [cornerOf]
    have h1 : c < x.length := by omega
    have h2 : c < (cornerOf nodalPts dim e i).length := by omega
    simp only [nodePos, List.getElem?_zipWith, List.getElem?_eq_getElem h1, List.getElem?_eq_getElem h2,
      Option.getD_some, Int.cast_add]
    ring
  have : ∀ i ∈ Finset.range nbElemNodes, shapeGrad shape q e d i *
      affine dim a b h ξ (List.zipWith (· + ·) x (cornerOf nodalPts dim e i)) r (nodeOf nodalPts e i).toNat =
      shapeGrad shape q e d i * (b r + ∑ c ∈ Finset.range dim, a r c * (h c * (((x[c]?).getD 0 : Int) : α))) +
      ∑ c ∈ Finset.range dim, a r c * (shapeGrad shape q e d i *
        nodePos h ξ (cornerOf nodalPts dim e i) (nodeOf nodalPts e i).toNat c) := by
    intro i _
    rw [affine, Finset.sum_congr rfl fun c hc => by rw [hpos i c (Finset.mem_range.1 hc)]]
    simp only [mul_add, Finset.sum_add_distrib, Finset.mul_sum]
    rw [add_assoc]
    congr 2
    exact Finset.sum_congr rfl fun c _ => by ring
  rw [Finset.sum_congr rfl this, Finset.sum_add_distrib, ← Finset.sum_mul, hl.zero e he q hq d hd, zero_mul, zero_add,
    Finset.sum_comm]
  simp only [← Finset.mul_sum]
  rw [Finset.sum_eq_single d]
  · rw [hl.slope e he q hq d hd d hd, if_pos rfl, mul_one]
  · intro c hc hne
    rw [hl.slope e he q hq d hd c (Finset.mem_range.1 hc), if_neg hne, mul_zero]
  · intro hn; exact absurd (Finset.mem_range.2 hd) hn

/-- **C93** The gradient of a linear function of the nodes' positions is its slope, at every quadrature point
of every element whose nodes are in the grid (not on the other side of the periodic boundary). -/
theorem C93_linear {srt : SortFn} (hsrt : SortSpec srt) {dim nbQuad nbElem nbElemNodes nbPixNodes : Nat}
    {shape : List (List (Mat α))} {nodalPts : List (List Int × Mat Int)} {op : GradOp α}
    (hop : make dim nbQuad nbElem nbElemNodes nbPixNodes shape nodalPts = .ok op)
    (hv : ValidNodes nodalPts dim nbElem nbElemNodes nbPixNodes) {h : Nat → α} {ξ : Nat → Nat → α}
    (hl : Linear shape nodalPts dim nbQuad nbElem nbElemNodes h ξ)
    {p : DynamicPixels} (hper : Periodic p dim) {nodal quad g : GField α} (hfit : op.Fits nodal quad)
    (hn : OnGrid p nodal) (hq : OnGrid p quad) {a : Nat → Nat → α} {b : Nat → α}
    (hU : Holds p nodal (affine dim a b h ξ)) (hg : op.applyGradient srt p nodal quad = (.ok (), g))
    {x : List Int} {k : Nat} (hx : InBoxAt p.nb p.loc x) (hk : p.getIndex x = .ok (k : Int))
    {e q d : Nat} (he : e < nbElem) (hq' : q < nbQuad) (hd : d < dim)
    (hin : ∀ i < nbElemNodes, InBoxAt p.nb p.loc (List.zipWith (· + ·) x (cornerOf nodalPts dim e i))) (r : Nat) :
    g.val k r (dim * (e * nbQuad + q) + d) = a r d := by
  obtain ⟨g', hg', -, hval⟩ := C55_gradient hsrt hop hv hper hfit hn hq hU
  rw [hg] at hg'
  cases congrArg Prod.snd hg'
  rw [hval x k hx hk e he q hq' d hd r]
  rw [← affine_value hl a b (x := x) (by rw [(InBoxAt.lengths hx).2, hper.dim_eq]) he hq' hd r]
  refine Finset.sum_congr rfl fun i hi => ?_
  rw [wrap_inside hper (hin i (Finset.mem_range.1 hi))]

/-- **C93** The same for stored fields: the value of the quadrature-point field at the component belonging to
derivative `d` of component `cc` is the slope. -/
theorem C93_linear_stored {srt : SortFn} (hsrt : SortSpec srt) {dim nbQuad nbElem nbElemNodes nbPixNodes : Nat}
    {shape : List (List (Mat α))} {nodalPts : List (List Int × Mat Int)} {op : GradOp α}
    (hop : make dim nbQuad nbElem nbElemNodes nbPixNodes shape nodalPts = .ok op)
    (hv : ValidNodes nodalPts dim nbElem nbElemNodes nbPixNodes) {h : Nat → α} {ξ : Nat → Nat → α}
    (hl : Linear shape nodalPts dim nbQuad nbElem nbElemNodes h ξ)
    {p : DynamicPixels} (hper : Periodic p dim) {w : List (Coll α U)} {nref qref : FieldAt}
    {cn cq : Coll α U} {fn fq : Field α U} (hn : Operand srt w nref cn fn p) (hq : Operand srt w qref cq fq p)
    (hne : nref ≠ qref) (hs : OperandShapes op fn fq) {a : Nat → Nat → α} {b : Nat → α}
    (hu : ∀ cc (j : Int) x, InBox fn.shape cc → 0 ≤ j → j < nbPixNodes → InBoxAt p.nb p.loc x →
      valueAt cn fn cc j x = some (affine dim a b h ξ x (componentNo fn.shape cc).toNat j.toNat)) :
    ∃ w', op.applyGradientF srt w nref qref = (.ok (), w') ∧ OnlyValues qref w w' ∧
      ∀ cq' fq', w'[qref.coll]? = some cq' → cq'.fields.find qref.name = some fq' →
      ∀ x, InBoxAt p.nb p.loc x → ∀ e < nbElem, ∀ q < nbQuad, ∀ d < dim, ∀ cc cc',
        InBox fn.shape cc → InBox fq.shape cc' →
        componentNo fq.shape cc' = componentNo fn.shape cc + fn.nbComp * d →
        (∀ i < nbElemNodes, InBoxAt p.nb p.loc (List.zipWith (· + ·) x (cornerOf nodalPts dim e i))) →
        valueAt cq' fq' cc' ((e * nbQuad + q : Nat) : Int) x = some (a (componentNo fn.shape cc).toNat d) := by
  obtain ⟨w', h1, h2, h3⟩ := C69_gradient hsrt hop hv hper hn hq hne hs
    (u := fun cc j x => affine dim a b h ξ x (componentNo fn.shape cc).toNat j.toNat) hu
  refine ⟨w', h1, h2, ?_⟩
  intro cq' fq' g1 g2 x hx e he q hq' d hd cc cc' hcc hcc' hno hin
  rw [h3 cq' fq' g1 g2 x hx e he q hq' d hd cc cc' hcc hcc' hno]
  rw [← affine_value hl a b (x := x) (by rw [(InBoxAt.lengths hx).2, hper.dim_eq]) he hq' hd]
  congr 1
  refine Finset.sum_congr rfl fun i hi => ?_
  rw [wrap_inside hper (hin i (Finset.mem_range.1 hi))]

/-- Grouping the nodes of an element by their number in the pixel. -/
theorem sum_balanced {nbElemNodes nbPixNodes : Nat} {node : Nat → Int} {S : Nat → α}
    (hnode : ∀ i < nbElemNodes, 0 ≤ node i ∧ node i < nbPixNodes)
    (hz : ∀ j < nbPixNodes, ∑ i ∈ Finset.range nbElemNodes, (if node i = (j : Int) then S i else 0) = 0)
    (V : Nat → α) : ∑ i ∈ Finset.range nbElemNodes, S i * V (node i).toNat = 0 := by
  have : ∀ i ∈ Finset.range nbElemNodes, S i * V (node i).toNat =
      ∑ j ∈ Finset.range nbPixNodes, (if node i = (j : Int) then S i else 0) * V j := by
    intro i hi
    obtain ⟨h0, h1⟩ := hnode i (Finset.mem_range.1 hi)
    rw [Finset.sum_eq_single (node i).toNat]
    · rw [if_pos (by omega)]
    · intro j _ hne
      rw [if_neg (by omega), zero_mul]
    · intro hn; exact absurd (Finset.mem_range.2 (by omega)) hn
  rw [Finset.sum_congr rfl this, Finset.sum_comm]
  refine Finset.sum_eq_zero fun j hj => ?_
  rw [← Finset.sum_mul, hz j (Finset.mem_range.1 hj), zero_mul]

/-- The column of a derivative, taken apart. -/
theorem column_parts {dim nbQuad nbElem col : Nat} (hcol : col < dim * nbQuad * nbElem) :
    ∃ e < nbElem, ∃ q < nbQuad, ∃ d < dim, col = dim * (e * nbQuad + q) + d := by
  have hd : 0 < dim := Nat.pos_of_ne_zero (by rintro rfl; simp at hcol)
  have hq0 : 0 < nbQuad := Nat.pos_of_ne_zero (by rintro rfl; simp at hcol)
  have hm : col / dim < nbQuad * nbElem := Nat.div_lt_of_lt_mul (by rw [← Nat.mul_assoc]; exact hcol)
  refine ⟨_, Nat.div_lt_of_lt_mul hm, _, Nat.mod_lt (col / dim) hq0, _, Nat.mod_lt col hd, ?_⟩
  rw [Nat.mul_comm (col / dim / nbQuad), Nat.div_add_mod, Nat.div_add_mod]

/-- **C93** Whatever the nodal values, every derivative at every quadrature point sums to zero over the
pixels of the periodic grid: its mean vanishes. -/
theorem C93_mean {srt : SortFn} (hsrt : SortSpec srt) {dim nbQuad nbElem nbElemNodes nbPixNodes : Nat}
    {shape : List (List (Mat α))} {nodalPts : List (List Int × Mat Int)} {op : GradOp α}
    (hop : make dim nbQuad nbElem nbElemNodes nbPixNodes shape nodalPts = .ok op)
    (hv : ValidNodes nodalPts dim nbElem nbElemNodes nbPixNodes)
    (hz : BalancedNodes shape nodalPts dim nbQuad nbElem nbElemNodes nbPixNodes)
    {p : DynamicPixels} (hper : Periodic p dim) {nodal quad g : GField α} (hfit : op.Fits nodal quad)
    (hn : OnGrid p nodal) (hq : OnGrid p quad) (hg : op.applyGradient srt p nodal quad = (.ok (), g))
    (r : Nat) {col : Nat} (hcol : col < op.nbGrad) :
    ∑ k ∈ Finset.range p.nb.prod.toNat, g.val k r col = 0 := by
  obtain ⟨g', hg', -, hval⟩ := C55_gradient hsrt hop hv hper hfit hn hq
    (U := fun x r j => nodal.val (num p x).toNat r j)
    (fun x k hx hk r j => by
      have := getIndex_num hper hx
      rw [hk] at this
      have := Res.ok.inj this
      simp only [show (num p x).toNat = k by omega])
  rw [hg] at hg'
  cases congrArg Prod.snd hg'
  obtain ⟨h1, h2, h3, -⟩ := make_ok hop
  simp only [nbGrad, h1, h2, h3] at hcol
  obtain ⟨e, he, q, hq', d, hd, rfl⟩ := column_parts hcol
  have hX : ∀ k, ∃ x, k < p.nb.prod.toNat → InBoxAt p.nb p.loc x ∧ num p x = k := by
    intro k
    by_cases hk : k < p.nb.prod.toNat
    · obtain ⟨x, hx⟩ := Periodic.pixel hper hk
      exact ⟨x, fun _ => hx⟩
    · exact ⟨[], fun h => absurd h hk⟩
  choose X hX using hX
  rw [Finset.sum_congr rfl fun k hk => hval (X k) k (hX k (Finset.mem_range.1 hk)).1
    (by
      have hk' := Finset.mem_range.1 hk
      rw [getIndex_num hper (hX k hk').1, (hX k hk').2]; rfl) e he q hq' d hd r, Finset.sum_comm]
  simp only [← Finset.mul_sum]
  rw [Finset.sum_congr rfl fun i _ => by
    rw [sum_wrap hper X hX (o := cornerOf nodalPts dim e i) (by simp [cornerOf])
      (fun x => nodal.val (num p x).toNat r (nodeOf nodalPts e i).toNat)]]
  exact sum_balanced (fun i hi => (hv e he i hi).1) (hz e he q hq' d hd)
    (fun j => ∑ k ∈ Finset.range p.nb.prod.toNat, nodal.val (num p (X k)).toNat r j)

/-- With one node per pixel, gradients that are exact for linear functions are balanced. -/
theorem balanced_of_single {shape : List (List (Mat α))} {nodalPts : List (List Int × Mat Int)}
    {dim nbQuad nbElem nbElemNodes : Nat} (hv : ValidNodes nodalPts dim nbElem nbElemNodes 1)
    (hz : ∀ e < nbElem, ∀ q < nbQuad, ∀ d < dim, ∑ i ∈ Finset.range nbElemNodes, shapeGrad shape q e d i = 0) :
    BalancedNodes shape nodalPts dim nbQuad nbElem nbElemNodes 1 := by
  intro e he q hq d hd j hj
  rw [← hz e he q hq d hd]
  refine Finset.sum_congr rfl fun i hi => ?_
  obtain ⟨⟨h0, h1⟩, -⟩ := hv e he i (Finset.mem_range.1 hi)
  rw [if_pos (by omega)]

/-- **C93** The transposed operator gives forces in balance: whatever the values at the quadrature points and
whatever the weights, each component of the result sums to zero over all nodes of the grid. -/
theorem C93_forces {srt : SortFn} (hsrt : SortSpec srt) {dim nbQuad nbElem nbElemNodes nbPixNodes : Nat}
    {shape : List (List (Mat α))} {nodalPts : List (List Int × Mat Int)} {op : GradOp α}
    (hop : make dim nbQuad nbElem nbElemNodes nbPixNodes shape nodalPts = .ok op)
    (hv : ValidNodes nodalPts dim nbElem nbElemNodes nbPixNodes)
    (hz : ∀ e < nbElem, ∀ q < nbQuad, ∀ d < dim, ∑ i ∈ Finset.range nbElemNodes, shapeGrad shape q e d i = 0)
    {p : DynamicPixels} (hper : Periodic p dim) {nodal quad t : GField α} (hfit : op.Fits nodal quad)
    (hn : OnGrid p nodal) (hq : OnGrid p quad) {w : List α}
    (ht : op.applyTranspose srt p quad nodal w = (.ok (), t)) {r : Nat} (hr : r < nodal.comps) :
    ∑ k ∈ Finset.range p.nb.prod.toNat, ∑ j ∈ Finset.range nbPixNodes, t.val k r j = 0 := by
  -- the gradient of the field which is one in component `r` vanishes
  let one : GField α := { nodal with val := fun _ r' _ => if r' = r then 1 else 0 }
  have hfit' : op.Fits one quad := hfit
  obtain ⟨g, hg, hsh, -⟩ := C55_gradient hsrt hop hv hper hfit' hn hq (U := fun _ r' _ => if r' = r then 1 else 0)
    (fun x k _ _ r' j => rfl)
  have hadj := C30_actual_partial (u := one) (s := quad) (quad := quad) (nodal := nodal)
    ⟨rfl, rfl, rfl, rfl⟩ hg ht
  have hzero : ∀ k < p.nb.prod.toNat, ∀ r' c, c < op.nbGrad → g.val k r' c = 0 := fun k hk r' c hc =>
    C31_constant hsrt hop hv hz hper hfit' hn hq (fun r' => if r' = r then 1 else 0) (fun _ _ _ => rfl) hg k r' c hk hc
  obtain ⟨-, -, -, -, h5, -⟩ := make_ok hop
  unfold OnGrid at hn hq
  have hl : inner quad.nb one.comps op.nbGrad
      (fun i r c => op.pixelWeight (op.theWeights w) i * quad.val i r c) g.val = 0 := by
    unfold inner
    refine Finset.sum_eq_zero fun k hk => Finset.sum_eq_zero fun r' _ => Finset.sum_eq_zero fun c hc => ?_
    rw [hzero k (by rw [← hq]; exact Finset.mem_range.1 hk) r' c (Finset.mem_range.1 hc), mul_zero]
  rw [hl, inner, show one.nb = p.nb.prod.toNat from hn, h5] at hadj
  rw [hadj]
  refine Finset.sum_congr rfl fun k _ => Eq.symm ?_
  rw [Finset.sum_eq_single r]
  · exact Finset.sum_congr rfl fun j _ => by simp [one]
  · intro r' _ hne
    exact Finset.sum_eq_zero fun j _ => by simp [one, hne]
  · intro h
    exact absurd (Finset.mem_range.2 hr) h

/-- **C93** Equal values at the quadrature points of all pixels give no force at any node (with the default
weights). -/
theorem C93_uniform {srt : SortFn} (hsrt : SortSpec srt) {dim nbQuad nbElem nbElemNodes nbPixNodes : Nat}
    {shape : List (List (Mat α))} {nodalPts : List (List Int × Mat Int)} {op : GradOp α}
    (hop : make dim nbQuad nbElem nbElemNodes nbPixNodes shape nodalPts = .ok op)
    (hv : ValidNodes nodalPts dim nbElem nbElemNodes nbPixNodes)
    (hz : BalancedNodes shape nodalPts dim nbQuad nbElem nbElemNodes nbPixNodes)
    {p : DynamicPixels} (hper : Periodic p dim) {nodal quad t : GField α} (hfit : op.Fits nodal quad)
    (hn : OnGrid p nodal) (hq : OnGrid p quad) (h0 : op.nbPixelQuad ≠ 0) {σ : Nat → Nat → α}
    (hσ : ∀ k r c, quad.val k r c = σ r c)
    (ht : op.applyTranspose srt p quad nodal [] = (.ok (), t)) {k r j : Nat} (hk : k < p.nb.prod.toNat)
    (hr : r < nodal.comps) (hj : j < nbPixNodes) : t.val k r j = 0 := by
  obtain ⟨t', ht', hval⟩ := transpose_value hsrt hop hv hper hfit hn hq h0
  rw [ht] at ht'
  cases congrArg Prod.snd ht'
  obtain ⟨y, hy, hyk⟩ := Periodic.pixel hper hk
  have := hval y hy r hr j hj
  rw [hyk, Int.toNat_natCast] at this
  rw [this]
  refine Finset.sum_eq_zero fun e he => Finset.sum_eq_zero fun q hq' => Finset.sum_eq_zero fun d hd => ?_
  have h := hz e (Finset.mem_range.1 he) q (Finset.mem_range.1 hq') d (Finset.mem_range.1 hd) j hj
  have h' := congrArg (· * σ r (dim * (e * nbQuad + q) + d)) h
  simp only [zero_mul, Finset.sum_mul, ite_mul] at h'
  simp only [hσ]
  exact h'

/-! ### The triangles on a 2 × 3 grid -/

/-- The two triangles differentiate linear functions (unit pixels, nodes in the corner of their pixel), and
their gradients are balanced. -/
theorem exLinear : Linear triangleGrads triangleNodes 2 1 2 3 (fun _ => 1) (fun _ _ => 0) ∧
    BalancedNodes triangleGrads triangleNodes 2 1 2 3 1 := by
  refine ⟨⟨by decide +kernel, ?_⟩, ?_⟩
  · unfold nodePos; decide +kernel
  · unfold BalancedNodes; decide +kernel

/-- The function `1 + 2 X + 3 Y` on the grid. -/
def exPlane : GField Int := ⟨true, 1, 1, 6, fun k r j => affine 2 (fun _ c => c + 2) (fun _ => 1) (fun _ => 1)
  (fun _ _ => 0) [(k : Int) % 2, (k : Int) / 2] r j⟩

theorem exPlane_holds : Holds grid23 exPlane (affine 2 (fun _ c => c + 2) (fun _ => 1) (fun _ => 1) (fun _ _ => 0)) := by
  intro x k hx hk r j
  obtain ⟨a, b, rfl⟩ : ∃ a b, x = [a, b] := by
    have := (InBoxAt.lengths hx).2
    match x, this with
    | [a, b], _ => exact ⟨a, b, rfl⟩
  obtain ⟨h1, h2, h3, h4, -⟩ := hx
  have hk' : (k : Int) = a + 2 * b := by
    have : grid23.getIndex [a, b] = .ok (a + 2 * b) := by
      simp [grid23, DynamicPixels.getIndex, getIndexFromStrides, indexSum]
      try ring
    rw [hk] at this
    exact Res.ok.inj this
  have h1' : 0 ≤ a := h1
  have h2' : a < 0 + 2 := h2
  simp only [exPlane]
  rw [show (k : Int) % 2 = a by omega, show (k : Int) / 2 = b by omega]

/-- All nodes of the elements of the first pixel are in the grid. -/
theorem exInside (e : Nat) (he : e < 2) (i : Nat) (hi : i < 3) : InBoxAt grid23.nb grid23.loc
    (List.zipWith (· + ·) [0, 0] (cornerOf triangleNodes 2 e i)) := by
  have : ∀ e < 2, ∀ i < 3, ∃ a b : Nat, a < 2 ∧ b < 3 ∧
      List.zipWith (· + ·) [0, 0] (cornerOf triangleNodes 2 e i) = [(a : Int), (b : Int)] := by
    intro e he i hi
    match e, he, i, hi with
    | 0, _, 0, _ => exact ⟨0, 0, by decide, by decide, by decide⟩
    | 0, _, 1, _ => exact ⟨1, 0, by decide, by decide, by decide⟩
    | 0, _, 2, _ => exact ⟨0, 1, by decide, by decide, by decide⟩
    | 1, _, 0, _ => exact ⟨1, 1, by decide, by decide, by decide⟩
    | 1, _, 1, _ => exact ⟨0, 1, by decide, by decide, by decide⟩
    | 1, _, 2, _ => exact ⟨1, 0, by decide, by decide, by decide⟩
  obtain ⟨a, b, h1, h2, h3⟩ := this e he i hi
  rw [h3]
  exact ⟨Int.natCast_nonneg a, show (a : Int) < 0 + 2 by omega, Int.natCast_nonneg b,
    show (b : Int) < 0 + 3 by omega, trivial⟩

/-- The gradient of `1 + 2 X + 3 Y` in the first pixel: 3 in direction Y, on both triangles. -/
example : ∃ op g, make 2 1 2 3 1 triangleGrads triangleNodes = .ok op ∧
    op.applyGradient stableSort grid23 exPlane ⟨true, 2, 2, 6, fun _ _ _ => 99⟩ = (.ok (), g) ∧
    g.val 0 0 1 = 3 ∧ g.val 0 0 3 = 3 ∧ ∑ k ∈ Finset.range 6, g.val k 0 1 = 0 := by
  obtain ⟨op, hop, hv, -, hfit, h4⟩ := exTriangles
  have hfit' : op.Fits exPlane ⟨true, 2, 2, 6, fun _ _ _ => 99⟩ := hfit
  obtain ⟨g, hg, -⟩ := C55_gradient stableSort_spec hop hv grid23_periodic hfit' rfl rfl exPlane_holds
  refine ⟨op, g, hop, hg, ?_, ?_, ?_⟩
  · exact C93_linear stableSort_spec hop hv exLinear.1 grid23_periodic hfit' rfl rfl exPlane_holds hg (x := [0, 0])
      ⟨by decide, by decide, by decide, by decide, trivial⟩ (by decide) (e := 0) (q := 0) (d := 1) (by decide)
      (by decide) (by decide) (exInside _ (by decide)) 0
  · exact C93_linear stableSort_spec hop hv exLinear.1 grid23_periodic hfit' rfl rfl exPlane_holds hg (x := [0, 0])
      ⟨by decide, by decide, by decide, by decide, trivial⟩ (by decide) (e := 1) (q := 0) (d := 1) (by decide)
      (by decide) (by decide) (exInside _ (by decide)) 0
  · exact C93_mean stableSort_spec hop hv exLinear.2 grid23_periodic hfit' rfl rfl hg 0 (by rw [h4]; decide)

/-- Forces from values at the quadrature points that are not uniform, and from uniform ones. -/
example : ∃ op t t', make 2 1 2 3 1 triangleGrads triangleNodes = .ok op ∧
    op.applyTranspose stableSort grid23 ⟨true, 2, 2, 6, fun k _ c => (k : Int) * k + c⟩ exPlane [] = (.ok (), t) ∧
    op.applyTranspose stableSort grid23 ⟨true, 2, 2, 6, fun _ _ c => c⟩ exPlane [] = (.ok (), t') ∧
    (∑ k ∈ Finset.range 6, ∑ j ∈ Finset.range 1, t.val k 0 j = 0) ∧ t'.val 4 0 0 = 0 := by
  obtain ⟨op, hop, hv, -, hfit, h4⟩ := exTriangles
  have h0 : op.nbPixelQuad ≠ 0 := by cases hop; decide
  have hfit1 : op.Fits exPlane ⟨true, 2, 2, 6, fun k _ c => (k : Int) * k + c⟩ := hfit
  have hfit2 : op.Fits exPlane ⟨true, 2, 2, 6, fun _ _ c => (c : Int)⟩ := hfit
  obtain ⟨t, ht, -⟩ := transpose_value stableSort_spec hop hv grid23_periodic hfit1 rfl rfl h0
  obtain ⟨t', ht', -⟩ := transpose_value stableSort_spec hop hv grid23_periodic hfit2 rfl rfl h0
  exact ⟨op, t, t', hop, ht, ht',
    C93_forces stableSort_spec hop hv exLinear.1.zero grid23_periodic hfit1 rfl rfl ht (by decide),
    C93_uniform stableSort_spec hop hv exLinear.2 grid23_periodic hfit2 rfl rfl h0 (fun _ _ _ => rfl) ht'
      (by decide) (by decide) (by decide)⟩

/-- The same grid with a stored field "u" of two components, `1 + 2 X + 3 Y` and `4 + 2 X + 3 Y`. -/
def exPlaneProgram : List (Op Int String) :=
  [.register "u" .real (.num 2) "pixel" "" false, .register "g" .real (.shape [2, 2]) "quad" "" false,
   .initGlobalOrder [2, 3] [2, 3] [0, 0] .colMajor,
   .write "u" 0 1, .write "u" 1 4, .write "u" 2 3, .write "u" 3 6, .write "u" 4 4, .write "u" 5 7, .write "u" 6 6,
   .write "u" 7 9, .write "u" 8 7, .write "u" 9 10, .write "u" 10 9, .write "u" 11 12]

def exPlaneColl : Coll Int String :=
  ((exGradStart .colMajor).run stableSort exPlaneProgram).getD (exGradStart .colMajor)

theorem exPlane_built : Built stableSort exPlaneColl := by
  refine ⟨true, 2, .colMajor, [("quad", 2)], exGradStart .colMajor, by simp [SMap.Sorted], ?_, by decide +kernel,
    reachable_of_run (ops := exPlaneProgram) ?_ Reachable.start ?_⟩
  · intro t n h
    simp only [SMap.find] at h
    split at h
    · cases h; right; decide
    · cases h
  · intro d op hop
    simp only [exPlaneProgram, List.mem_cons, List.mem_nil_iff, or_false] at hop
    rcases hop with rfl | rfl | rfl | rfl | rfl | rfl | rfl | rfl | rfl | rfl | rfl | rfl | rfl | rfl | rfl <;>
      simp [Adm, Comps.toNb, getSize]
  · have : ((exGradStart .colMajor).run stableSort exPlaneProgram).isSome = true := by decide +kernel
    unfold exPlaneColl
    rw [Option.isSome_iff_exists] at this
    obtain ⟨c, hc⟩ := this
    rw [hc]; rfl

/-- The values of the stored field, component by component and pixel by pixel. -/
def exPlaneCheck : Bool :=
  match exPlaneColl.fields.find "u" with
  | some f => (List.range 2).all fun r => (List.range 2).all fun a => (List.range 3).all fun b =>
      valueAt exPlaneColl f [(r : Int)] 0 [(a : Int), (b : Int)] == some (1 + 3 * r + 2 * a + 3 * b : Int)
  | none => false

example : ∃ op w' cq' fq', make 2 1 2 3 1 triangleGrads triangleNodes = .ok op ∧
    op.applyGradientF stableSort [exPlaneColl] ⟨0, "u"⟩ ⟨0, "g"⟩ = (.ok (), w') ∧
    w'[0]? = some cq' ∧ cq'.fields.find "g" = some fq' ∧ valueAt cq' fq' [1, 1] 1 [0, 0] = some 3 := by
  have hu : (exPlaneColl.fields.find "u").map (fun f => (f.nbComp, f.nbSub, f.shape)) = some (2, 1, [2]) := by
    decide +kernel
  have hg : (exPlaneColl.fields.find "g").map (fun f => (f.nbComp, f.nbSub, f.shape)) = some (4, 2, [2, 2]) := by
    decide +kernel
  obtain ⟨fu, hu1, hu2⟩ := Option.map_eq_some_iff.1 hu
  obtain ⟨fg, hg1, hg2⟩ := Option.map_eq_some_iff.1 hg
  simp only [Prod.mk.injEq] at hu2 hg2
  obtain ⟨op, hop, hv, -, -, -⟩ := exTriangles
  have hpix : exPlaneColl.pixels = grid23 := by decide +kernel
  have ou : Operand stableSort [exPlaneColl] ⟨0, "u"⟩ exPlaneColl fu grid23 :=
    ⟨⟨rfl, hu1, exPlane_built, by decide +kernel, by decide +kernel, hpix⟩, by decide +kernel⟩
  have og : Operand stableSort [exPlaneColl] ⟨0, "g"⟩ exPlaneColl fg grid23 :=
    ⟨⟨rfl, hg1, exPlane_built, by decide +kernel, by decide +kernel, hpix⟩, by decide +kernel⟩
  have hs : OperandShapes op fu fg := by
    cases hop
    refine ⟨?_, hu2.2.1, hg2.2.1⟩
    show fg.nbComp = 2 * fu.nbComp
    omega
  have hval : ∀ cc (j : Int) x, InBox fu.shape cc → 0 ≤ j → j < (1 : Nat) → InBoxAt grid23.nb grid23.loc x →
      valueAt exPlaneColl fu cc j x = some (affine 2 (fun _ c => (c : Int) + 2) (fun r => 1 + 3 * r) (fun _ => 1)
        (fun _ _ => 0) x (componentNo fu.shape cc).toNat j.toNat) := by
    intro cc j x hcc h0 h1 hx
    have hj : j = 0 := by omega
    subst hj
    rw [hu2.2.2] at hcc ⊢
    match cc, hcc with
    | [r], hcc =>
    obtain ⟨r0, r1, -⟩ := hcc
    obtain ⟨a, b, rfl⟩ : ∃ a b, x = [a, b] := by
      have := (InBoxAt.lengths hx).2
      match x, this with
      | [a, b], _ => exact ⟨a, b, rfl⟩
    obtain ⟨h1, h2, h3, h4, -⟩ := hx
    have h2' : a < 0 + 2 := h2
    have h4' : b < 0 + 3 := h4
    obtain ⟨r, rfl⟩ := Int.eq_ofNat_of_zero_le r0
    obtain ⟨a, rfl⟩ := Int.eq_ofNat_of_zero_le h1
    obtain ⟨b, rfl⟩ := Int.eq_ofNat_of_zero_le h3
    have hc : exPlaneCheck = true := by decide +kernel
    simp only [exPlaneCheck, hu1, List.all_eq_true, List.mem_range, beq_iff_eq] at hc
    have := hc r (by omega) a (by omega) b (by omega)
    refine this.trans ?_
    simp [affine, nodePos, Finset.sum_range_succ, componentNo]
    ring
  obtain ⟨w', hw, honly, hres⟩ := C93_linear_stored stableSort_spec hop hv exLinear.1 grid23_periodic ou og (by decide) hs hval
  have hw' : ∃ cq' fq', w'[0]? = some cq' ∧ cq'.fields.find "g" = some fq' := by
    obtain ⟨f', h1, -⟩ := honly.self fg hg1
    unfold FieldAt.find at h1
    split at h1
    · rename_i c hc
      exact ⟨c, f', hc, h1⟩
    · cases h1
  obtain ⟨cq', fq', h1, h2⟩ := hw'
  refine ⟨op, w', cq', fq', hop, hw, h1, h2, ?_⟩
  have := hres cq' fq' h1 h2 [0, 0] ⟨by decide, by decide, by decide, by decide, trivial⟩ 1 (by decide) 0 (by decide)
    1 (by decide) [1] [1, 1] (by rw [hu2.2.2]; simp [InBox]) (by rw [hg2.2.2]; simp [InBox])
    (by rw [hu2.2.2, hg2.2.2, hu2.1]; decide) (exInside 1 (by decide))
  exact this

end Verif.Props
