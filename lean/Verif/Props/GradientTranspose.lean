import Verif.Props.GradientField
/-
Property C69 continued: values of the transposed operator on stored fields.
-/
set_option linter.unusedSectionVars false

namespace Verif.Props
open Verif Verif.Ccoord Verif.Layout Verif.Collection Verif.Collection.Coll Verif.GradOp
open scoped BigOperators

section Grid

/-- Shifting by `o` on the periodic grid is undone by shifting by `-o`. -/
theorem wrap_eq_iff : ∀ {nb x y o : List Int}, InBox nb x → InBox nb y → o.length = nb.length →
    (wrap nb x o = y ↔ x = wrap nb y (o.map (- ·)))
  | [], [], [], [], _, _, _ => by simp [wrap]
  | n :: nb, a :: x, b :: y, c :: o, hx, hy, ho => by
      have ih := wrap_eq_iff hx.2.2 hy.2.2 (by simpa using ho)
      have h1 : (a + c) % n = b ↔ a = (b + -c) % n := by
        constructor
        · rintro rfl
          rw [Int.emod_add_emod, add_neg_cancel_right, Int.emod_eq_of_lt hx.1 hx.2.1]
        · rintro rfl
          rw [Int.emod_add_emod, neg_add_cancel_right, Int.emod_eq_of_lt hy.1 hy.2.1]
      simp only [wrap, List.zipWith_cons_cons, List.map_cons, List.cons.injEq] at ih ⊢
      rw [h1, ih]
  | [], [], [], _ :: _, _, _, h => by simp at h
  | [], _ :: _, _, _, h, _, _ => by simp [InBox] at h
  | [], [], _ :: _, _, _, h, _ => by simp [InBox] at h
  | _ :: _, [], _, _, h, _, _ => by simp [InBox] at h
  | _ :: _, _ :: _, [], _, _, h, _ => by simp [InBox] at h
  | _ :: _, _ :: _, _ :: _, [], _, _, h => by simp at h

end Grid

variable {α U : Type} [CommRing α] [Inhabited α] [DecidableEq U]

theorem sum_range_mul_add {β : Type} [AddCommMonoid β] (n m : Nat) (f : Nat → β) :
    ∑ k ∈ Finset.range (n * m), f k = ∑ i ∈ Finset.range n, ∑ j ∈ Finset.range m, f (m * i + j) := by
  induction n with
  | zero => simp
  | succ n ih =>
    rw [Nat.succ_mul, Finset.sum_range_add, ih, Finset.sum_range_succ]
    congr 1
    exact Finset.sum_congr rfl fun j _ => by rw [Nat.mul_comm]

/-- The columns of the pixel map are elements, quadrature points and directions. -/
theorem sum_columns {β : Type} [AddCommMonoid β] (dim nbQuad nbElem : Nat) (f : Nat → β) :
    ∑ c ∈ Finset.range (dim * nbQuad * nbElem), f c =
      ∑ e ∈ Finset.range nbElem, ∑ q ∈ Finset.range nbQuad, ∑ d ∈ Finset.range dim,
        f (dim * (e * nbQuad + q) + d) := by
  rw [show dim * nbQuad * nbElem = (nbElem * nbQuad) * dim by ring, sum_range_mul_add, sum_range_mul_add]
  refine Finset.sum_congr rfl fun e _ => Finset.sum_congr rfl fun q _ => Finset.sum_congr rfl fun d _ => ?_
  rw [Nat.mul_comm nbQuad e]

theorem periodic_inBox {p : DynamicPixels} {dim : Nat} (h : Periodic p dim) {x : List Int} :
    InBoxAt p.nb p.loc x ↔ InBox p.nb x := by
  rw [h.origin]
  generalize p.nb = nb
  induction nb generalizing x with
  | nil => cases x <;> simp [InBox, InBoxAt]
  | cons n nb ih => cases x with
    | nil => simp [InBox, InBoxAt, List.replicate_succ]
    | cons a x => simp [InBox, InBoxAt, List.replicate_succ, ih]

/-- Values of the transposed operator with default weights, on functions of pixel, row and column. -/
theorem transpose_value {srt : SortFn} (hsrt : SortSpec srt) {dim nbQuad nbElem nbElemNodes nbPixNodes : Nat}
    {shape : List (List (Mat α))} {nodalPts : List (List Int × Mat Int)} {op : GradOp α}
    (hop : make dim nbQuad nbElem nbElemNodes nbPixNodes shape nodalPts = .ok op)
    (hv : ValidNodes nodalPts dim nbElem nbElemNodes nbPixNodes)
    {p : DynamicPixels} (hper : Periodic p dim) {nodal quad : GField α} (hfit : op.Fits nodal quad)
    (hn : OnGrid p nodal) (hq : OnGrid p quad) (h0 : op.nbPixelQuad ≠ 0) :
    ∃ t, op.applyTranspose srt p quad nodal [] = (.ok (), t) ∧
      ∀ y, InBoxAt p.nb p.loc y → ∀ r < nodal.comps, ∀ j < nbPixNodes,
        t.val (num p y).toNat r j = ∑ e ∈ Finset.range nbElem, ∑ q ∈ Finset.range nbQuad, ∑ d ∈ Finset.range dim,
          ∑ i ∈ Finset.range nbElemNodes, if nodeOf nodalPts e i = (j : Int) then
            shapeGrad shape q e d i * quad.val
              (num p (wrap p.nb y ((cornerOf nodalPts dim e i).map (- ·)))).toNat r (dim * (e * nbQuad + q) + d)
            else 0 := by
  obtain ⟨m1, m2, m3, -, m5, -⟩ := make_ok hop
  have hper' : Periodic p op.dim := by rw [m1]; exact hper
  obtain ⟨L, l1, l2, l3, l4⟩ := hper'.visits hsrt
  have hbox : ∀ i, i < L.length → InBoxAt p.nb p.loc ((L[i]?).getD []) := by
    intro i hi
    rw [List.getElem?_eq_getElem hi]
    exact (l2 _).1 (List.getElem_mem hi)
  -- the transposed operator can be applied
  have hok : ∃ t, op.applyTranspose srt p quad nodal [] = (.ok (), t) := by
    have hok' : ∃ t, op.transposeIncrement srt p quad 1 nodal.setZero [] = .ok t := by
      refine ⟨_, transposeIncrement_ok.2 ⟨hfit, _, l4, ⟨?_, ?_⟩, rfl⟩⟩
      · intro t ht
        obtain ⟨i, hi, ht⟩ := List.mem_flatMap.1 ht
        obtain ⟨o, ho, rfl⟩ := List.mem_map.1 ht
        have hi' := List.mem_range.1 hi
        have hb := hper'.num_bounds (hper'.wrap_inBox (hbox i hi') (corner_length op.dim o))
        unfold OnGrid at hn hq
        refine ⟨⟨by simp, ?_⟩, hb.1, ?_⟩
        · simp only; omega
        · simp only [GField.setZero]; omega
      · intro t ht
        obtain ⟨i, hi, ht⟩ := List.mem_flatMap.1 ht
        obtain ⟨o, ho, rfl⟩ := List.mem_map.1 ht
        refine ⟨h0, ?_⟩
        simp only [theWeights, List.length_nil, if_true, List.length_replicate]
        rw [Int.tmod_eq_emod_of_nonneg (by omega)]
        have h1 := Int.emod_lt_of_pos (i : Int) (show (0 : Int) < op.nbPixelQuad by omega)
        have h2 := Int.emod_nonneg (i : Int) (show ((op.nbPixelQuad : Nat) : Int) ≠ 0 by omega)
        omega
    obtain ⟨t, ht⟩ := hok'
    exact ⟨t, by simp only [applyTranspose, ht]⟩
  obtain ⟨t, ht⟩ := hok
  refine ⟨t, ht, ?_⟩
  intro y hy r hr j hj
  have hnumy := hper.num_bounds hy
  -- compare with the gradient of the unit vector
  let δ : GField α := withVal nodal (fun k r' j' => if k = (num p y).toNat ∧ r' = r ∧ j' = j then 1 else 0)
  have hrδ : r ∈ Finset.range δ.comps := Finset.mem_range.2 hr
  have hfitδ : op.Fits δ quad := hfit
  obtain ⟨g, hg, -, hval⟩ := C55_gradient hsrt hop hv hper (nodal := δ) hfitδ hn hq
    (U := fun x r' j' => if (num p x).toNat = (num p y).toNat ∧ r' = r ∧ j' = j then 1 else 0)
    (fun x k hx hk r' j' => by
      have := getIndex_num hper hx
      rw [hk] at this
      have := Res.ok.inj this
      have hxk : (num p x).toNat = k := by omega
      simp only [δ, withVal, hxk])
  have hadj := C30_default (u := δ) (s := quad) (nodal := nodal) ⟨rfl, rfl, rfl, rfl⟩ hg ht
  have hR : inner δ.nb δ.comps op.nbPixNodes δ.val t.val = t.val (num p y).toNat r j := by
    unfold inner
    have hny : (num p y).toNat ∈ Finset.range δ.nb := by
      rw [Finset.mem_range]
      show _ < nodal.nb
      unfold OnGrid at hn
      omega
    rw [Finset.sum_eq_single_of_mem _ hny, Finset.sum_eq_single_of_mem r hrδ,
      Finset.sum_eq_single_of_mem j (Finset.mem_range.2 (by rw [m5]; exact hj))]
    · simp [δ, withVal]
    · intro j' _ hne; simp [δ, withVal, hne]
    · intro r' _ hne; simp [δ, withVal, hne]
    · intro k' _ hne; simp [δ, withVal, hne]
  rw [hR] at hadj
  rw [← hadj]
  unfold inner
  -- only row r contributes
  have hrow : ∀ k ∈ Finset.range quad.nb, (∑ r' ∈ Finset.range δ.comps, ∑ c ∈ Finset.range op.nbGrad,
      quad.val k r' c * g.val k r' c) = ∑ e ∈ Finset.range nbElem, ∑ q ∈ Finset.range nbQuad,
        ∑ d ∈ Finset.range dim, ∑ i ∈ Finset.range nbElemNodes,
          if k = (num p (wrap p.nb y ((cornerOf nodalPts dim e i).map (- ·)))).toNat ∧
              nodeOf nodalPts e i = (j : Int) then
            shapeGrad shape q e d i * quad.val k r (dim * (e * nbQuad + q) + d) else 0 := by
    intro k hk
    have hk' : k < L.length := by
      rw [Finset.mem_range] at hk
      unfold OnGrid at hq
      omega
    have hx := hbox k hk'
    have hgi : p.getIndex ((L[k]?).getD []) = .ok (k : Int) := by
      rw [List.getElem?_eq_getElem hk']
      exact l3 k hk'
    generalize hxe : (L[k]?).getD [] = x at hx hgi
    have hkx : (num p x).toNat = k := by
      have := getIndex_num hper hx
      rw [hgi] at this
      have := Res.ok.inj this
      omega
    have hgrad : op.nbGrad = dim * nbQuad * nbElem := by rw [nbGrad, m1, m2, m3]
    have hterm : ∀ r', ∑ c ∈ Finset.range op.nbGrad, quad.val k r' c * g.val k r' c =
        ∑ e ∈ Finset.range nbElem, ∑ q ∈ Finset.range nbQuad, ∑ d ∈ Finset.range dim,
          ∑ i ∈ Finset.range nbElemNodes,
            if r' = r then (if k = (num p (wrap p.nb y ((cornerOf nodalPts dim e i).map (- ·)))).toNat ∧
              nodeOf nodalPts e i = (j : Int) then
            shapeGrad shape q e d i * quad.val k r (dim * (e * nbQuad + q) + d) else 0) else 0 := by
      intro r'
      rw [hgrad, sum_columns]
      refine Finset.sum_congr rfl fun e he => Finset.sum_congr rfl fun q hq' => Finset.sum_congr rfl fun d hd => ?_
      rw [hval x k hx hgi e (Finset.mem_range.1 he) q (Finset.mem_range.1 hq') d (Finset.mem_range.1 hd), Finset.mul_sum]
      refine Finset.sum_congr rfl fun i hi => ?_
      obtain ⟨⟨n0, n1⟩, hcor⟩ := hv e (Finset.mem_range.1 he) i (Finset.mem_range.1 hi)
      have hcl : (cornerOf nodalPts dim e i).length = dim := by simp [cornerOf]
      have hw := hper.wrap_inBox hx hcl
      have hwy := hper.wrap_inBox hy (o := (cornerOf nodalPts dim e i).map (- ·)) (by simp [hcl])
      have hiff : (num p (wrap p.nb x (cornerOf nodalPts dim e i))).toNat = (num p y).toNat ↔
          k = (num p (wrap p.nb y ((cornerOf nodalPts dim e i).map (- ·)))).toNat := by
        have hinj : ∀ {a b : List Int}, InBoxAt p.nb p.loc a → InBoxAt p.nb p.loc b →
            (num p a).toNat = (num p b).toNat → a = b := by
          intro a b ha hb hab
          have h1 := hper.num_bounds ha
          have h2 := hper.num_bounds hb
          obtain ⟨ia, a1, -, -, a4⟩ := hper.good.coord ha
          obtain ⟨ib, b1, -, -, b4⟩ := hper.good.coord hb
          rw [getIndex_num hper ha] at a1
          rw [getIndex_num hper hb] at b1
          have a1' := Res.ok.inj a1
          have b1' := Res.ok.inj b1
          have : ia = ib := by omega
          rw [this, b4] at a4
          exact (Res.ok.inj a4).symm
        have hwi := wrap_eq_iff ((periodic_inBox hper).1 hx) ((periodic_inBox hper).1 hy)
          (o := cornerOf nodalPts dim e i) (by rw [hcl, hper.dim_eq])
        constructor
        · intro h
          rw [← hwi.1 (hinj hw hy h), hkx]
        · intro h
          rw [← hkx] at h
          rw [hwi.2 (hinj hx hwy h)]
      by_cases hrr : r' = r
      · subst hrr
        have hnode : (nodeOf nodalPts e i).toNat = j ↔ nodeOf nodalPts e i = (j : Int) := by omega
        simp only [true_and, if_true, hiff, hnode]
        split <;> ring
      · simp [hrr]
    simp only [hterm]
    rw [Finset.sum_eq_single_of_mem r hrδ]
    · simp
    · intro r' _ hne
      simp [hne]
  rw [Finset.sum_congr rfl hrow, Finset.sum_comm]
  refine Finset.sum_congr rfl fun e he => ?_
  rw [Finset.sum_comm]
  refine Finset.sum_congr rfl fun q hq' => ?_
  rw [Finset.sum_comm]
  refine Finset.sum_congr rfl fun d hd => ?_
  rw [Finset.sum_comm]
  refine Finset.sum_congr rfl fun i hi => ?_
  have hcl : (cornerOf nodalPts dim e i).length = dim := by simp [cornerOf]
  have hwy := hper.wrap_inBox hy (o := (cornerOf nodalPts dim e i).map (- ·)) (by simp [hcl])
  have hb := hper.num_bounds hwy
  rw [Finset.sum_eq_single_of_mem (num p (wrap p.nb y ((cornerOf nodalPts dim e i).map (- ·)))).toNat]
  · simp
  · rw [Finset.mem_range]
    unfold OnGrid at hq
    omega
  · intro k _ hne
    rw [if_neg (fun h => hne h.1)]

/-- Application of the transposed operator: outcome, values and what else changes, in terms of the loops on
functions. -/
theorem transposeF_ok {srt : SortFn} {op : GradOp α} {w : List (Coll α U)} {nref qref : FieldAt}
    {cn cq : Coll α U} {fn fq : Field α U} {p : DynamicPixels} (hper : Periodic p op.dim)
    (hn : Operand srt w nref cn fn p) (hq : Operand srt w qref cq fq p) (hne : nref ≠ qref)
    (hs : OperandShapes op fn fq) {g : GField α} {ws : List α}
    (hg : op.applyTranspose srt p (toG fq fn.nbComp.toNat op.nbGrad p.nb.prod.toNat)
      (toG fn fn.nbComp.toNat op.nbPixNodes p.nb.prod.toNat) ws = (.ok (), g)) :
    ∃ l, op.applyTransposeF srt w qref nref ws = (.ok (), upd w nref cn fn l) ∧ l.length = fn.vals.length ∧
      RepVals l fn.nbComp.toNat op.nbPixNodes p.nb.prod.toNat g.val := by
  have hsh := hn.shapes hq hper hs
  have hcn := hn.cell
  have hcq := hq.cell
  have hz : (List.replicate fn.vals.length (0 : α)).length = fn.vals.length := by simp
  obtain ⟨cq', hcq'⟩ := hcn.upd_other (Ne.symm hne) hcq (List.replicate fn.vals.length 0)
  have hcn' := hcn.upd_self (List.replicate fn.vals.length 0)
  unfold applyTranspose at hg
  split at hg
  case h_2 => cases hg
  case h_3 => cases hg
  rename_i g' hg'
  cases hg
  rw [← toG_zero] at hg'
  obtain ⟨w', hw', -, l, rfl, h2, h3, -⟩ := transposeF_refines hne hcn' hcq' (Shapes.withN hsh hz) hg'
  refine ⟨l, ?_, by simpa using h2, h3⟩
  unfold applyTransposeF zeroThen
  simp only [zeroField_ok hcn, hw']
  rw [show upd (upd w nref cn fn (List.replicate fn.vals.length 0)) nref
      (cn.withField nref.name (fn.withVals (List.replicate fn.vals.length 0)))
      (fn.withVals (List.replicate fn.vals.length 0)) l = upd w nref cn fn l from
    upd_upd hcn.sorted fn _ l]

/-- **C69** The transposed operator (default weights) on a stored field: under the conditions of
`C69_gradient` the call succeeds and changes nothing but the values of the nodal field, which are
`∑ ∂N_{q,e}(d, i) · s(component cc and direction d, quadrature point q of e, y - corner of node i of e)` at
component `cc`, node `j` and the pixel at `y`, the sum over all elements `e`, quadrature points `q`,
directions `d` and element nodes `i` that are the node `j`.  `cd d` is the component of the
quadrature-point field that belongs to component `cc` and direction `d`. -/
theorem C69_transpose {srt : SortFn} (hsrt : SortSpec srt) {dim nbQuad nbElem nbElemNodes nbPixNodes : Nat}
    {shape : List (List (Mat α))} {nodalPts : List (List Int × Mat Int)} {op : GradOp α}
    (hop : make dim nbQuad nbElem nbElemNodes nbPixNodes shape nodalPts = .ok op)
    (hv : ValidNodes nodalPts dim nbElem nbElemNodes nbPixNodes)
    {p : DynamicPixels} (hper : Periodic p dim) {w : List (Coll α U)} {nref qref : FieldAt}
    {cn cq : Coll α U} {fn fq : Field α U} (hn : Operand srt w nref cn fn p) (hq : Operand srt w qref cq fq p)
    (hne : nref ≠ qref) (hs : OperandShapes op fn fq) {s : List Int → Int → List Int → α}
    (hsv : ∀ cc (k : Int) x, InBox fq.shape cc → 0 ≤ k → k < ((nbQuad * nbElem : Nat) : Int) →
      InBoxAt p.nb p.loc x → valueAt cq fq cc k x = some (s cc k x)) :
    ∃ w', op.applyTransposeF srt w qref nref [] = (.ok (), w') ∧ OnlyValues nref w w' ∧
      ∀ cn' fn', w'[nref.coll]? = some cn' → cn'.fields.find nref.name = some fn' →
      ∀ y, InBoxAt p.nb p.loc y → ∀ (j : Nat), j < nbPixNodes → ∀ cc, InBox fn.shape cc →
      ∀ cd : Nat → List Int, (∀ d < dim, InBox fq.shape (cd d) ∧
        componentNo fq.shape (cd d) = componentNo fn.shape cc + fn.nbComp * d) →
        valueAt cn' fn' cc (j : Int) y = some (∑ e ∈ Finset.range nbElem, ∑ q ∈ Finset.range nbQuad,
          ∑ d ∈ Finset.range dim, ∑ i ∈ Finset.range nbElemNodes, if nodeOf nodalPts e i = (j : Int) then
            shapeGrad shape q e d i * s (cd d) ((e * nbQuad + q : Nat) : Int)
              (wrap p.nb y ((cornerOf nodalPts dim e i).map (- ·))) else 0) := by
  obtain ⟨h1, h2, h3, -, h5, -⟩ := make_ok hop
  have hper' : Periodic p op.dim := by rw [h1]; exact hper
  have hsh := hn.shapes hq hper' hs
  have hfit := toG_fits hsh
  have hq0 : op.nbPixelQuad ≠ 0 := by
    obtain ⟨s1, -, -⟩ := hq.built.size.size hq.init _ _ hq.field
    have hpos : 1 ≤ fq.nbSub := (hq.built.size.sub_pos hq.field).resolve_left s1
    rw [hsh.subQ] at hpos
    omega
  obtain ⟨t, ht, hval⟩ := transpose_value hsrt hop hv hper hfit rfl rfl hq0
  obtain ⟨l, hl1, hl2, hl3⟩ := transposeF_ok hper' hn hq hne hs ht
  refine ⟨_, hl1, onlyValues_upd hn.coll hn.field hl2, ?_⟩
  intro cn' fn' hcn' hfn' y hy j hj cc hcc cd hcd
  have hc' := hn.cell.upd_self l
  rw [hc'.at_] at hcn'
  cases hcn'
  rw [hc'.find] at hfn'
  cases hfn'
  obtain ⟨b1, b2⟩ := componentNo_bounds hcc
  have hnum := hper.num_bounds hy
  have hfnc : fn.nbComp = fn.shape.prod := by rw [hn.cell.comps, getSize_eq_prod]
  have hrow : ((fn.nbComp.toNat : Nat) : Int) = fn.nbComp := hsh.compN.symm
  have hr : (componentNo fn.shape cc).toNat < fn.nbComp.toNat := by omega
  have hnumc : num (cn.withField nref.name (fn.withVals l)).pixels y = num p y := by
    show num cn.pixels y = _
    rw [hn.pixels]
  rw [valueAt_eq (c := cn.withField nref.name (fn.withVals l)) (f := fn.withVals l) hc'.glob hc'.order hc'.fresh
    hc'.comps hcc (by omega) (x := y) (by show 0 ≤ fn.nbSub; rw [hsh.subN]; omega) (by rw [hnumc]; exact hnum.1),
    hnumc]
  simp only
  have hidx : (num p y * (fn.nbComp * fn.nbSub) + ((j : Int) * fn.nbComp + componentNo fn.shape cc)).toNat =
      (num p y).toNat * (fn.nbComp.toNat * op.nbPixNodes) +
        (j * fn.nbComp.toNat + (componentNo fn.shape cc).toNat) := by
    rw [hsh.dofN]
    generalize fn.nbComp.toNat = R at *
    rw [← hrow]
    generalize num p y = M at *
    generalize componentNo fn.shape cc = C at *
    obtain ⟨M', rfl⟩ := Int.eq_ofNat_of_zero_le hnum.1
    obtain ⟨C', rfl⟩ := Int.eq_ofNat_of_zero_le b1
    simp only [Int.ofNat_eq_natCast, Int.toNat_natCast]
    rw [show ((M' : Int) * ((R * op.nbPixNodes : Nat) : Int) + ((j : Int) * (R : Int) + (C' : Int))) =
      ((M' * (R * op.nbPixNodes) + (j * R + C') : Nat) : Int) by push_cast; ring]
    exact Int.toNat_natCast _
  rw [hidx, hl3 _ (by omega) _ (by rw [h5]; exact hj) _ hr, hval y hy _ (by simpa [toG] using hr) j hj]
  congr 1
  refine Finset.sum_congr rfl fun e he => Finset.sum_congr rfl fun q hq' => Finset.sum_congr rfl fun d hd =>
    Finset.sum_congr rfl fun i hi => ?_
  rw [Finset.mem_range] at he hq' hd hi
  split
  case isFalse => rfl
  congr 1
  have heq : e * nbQuad + q < nbQuad * nbElem := by
    calc e * nbQuad + q < e * nbQuad + nbQuad := by omega
      _ = (e + 1) * nbQuad := by ring
      _ ≤ nbElem * nbQuad := Nat.mul_le_mul_right _ he
      _ = nbQuad * nbElem := by ring
  have hcl : (cornerOf nodalPts dim e i).length = dim := by simp [cornerOf]
  have hwy := hper.wrap_inBox hy (o := (cornerOf nodalPts dim e i).map (- ·)) (by simp [hcl])
  obtain ⟨hbox, hno⟩ := hcd d hd
  have hv2 := hsv (cd d) ((e * nbQuad + q : Nat) : Int) _ hbox (by omega) (by omega) hwy
  have hnw := hper.num_bounds hwy
  rw [valueAt_eq hq.glob hq.order hq.cell.fresh hq.cell.comps hbox (by omega) (by rw [hsh.subQ]; omega)
    (by rw [hq.pixels]; exact hnw.1), hq.pixels, hno] at hv2
  show (fq.vals[_]?).getD 0 = _
  have hidx2 : (num p (wrap p.nb y ((cornerOf nodalPts dim e i).map (- ·))) * (fq.nbComp * fq.nbSub) +
      (((e * nbQuad + q : Nat) : Int) * fq.nbComp + (componentNo fn.shape cc + fn.nbComp * d))).toNat =
      (num p (wrap p.nb y ((cornerOf nodalPts dim e i).map (- ·)))).toNat * (fn.nbComp.toNat * op.nbGrad) +
        ((dim * (e * nbQuad + q) + d) * fn.nbComp.toNat + (componentNo fn.shape cc).toNat) := by
    rw [hsh.dofQ, hsh.compQ, h1]
    generalize fn.nbComp.toNat = R at *
    rw [← hrow]
    generalize num p (wrap p.nb y ((cornerOf nodalPts dim e i).map (- ·))) = M at *
    generalize componentNo fn.shape cc = C at *
    obtain ⟨M', rfl⟩ := Int.eq_ofNat_of_zero_le hnw.1
    obtain ⟨C', rfl⟩ := Int.eq_ofNat_of_zero_le b1
    simp only [Int.ofNat_eq_natCast, Int.toNat_natCast]
    rw [show ((M' : Int) * ((R * op.nbGrad : Nat) : Int) + (((e * nbQuad + q : Nat) : Int) *
      ((dim : Int) * (R : Int)) + ((C' : Int) + (R : Int) * (d : Int)))) =
      ((M' * (R * op.nbGrad) + ((dim * (e * nbQuad + q) + d) * R + C') : Nat) : Int) by push_cast; ring]
    exact Int.toNat_natCast _
  rw [← hidx2, hv2]
  rfl

/-- Every element of a field the operator can be applied to has a value. -/
theorem C69_values {srt : SortFn} {w : List (Coll α U)} {a : FieldAt} {c : Coll α U} {f : Field α U}
    {p : DynamicPixels} {dim : Nat} (hper : Periodic p dim) (h : Operand srt w a c f p) {cc x : List Int} {s : Int}
    (hcc : InBox f.shape cc) (h0 : 0 ≤ s) (h1 : s < f.nbSub) (hx : InBoxAt p.nb p.loc x) :
    ∃ v, valueAt c f cc s x = some v := by
  have hnum := hper.num_bounds hx
  obtain ⟨b1, b2⟩ := componentNo_bounds hcc
  have hfc : f.nbComp = f.shape.prod := by rw [h.cell.comps, getSize_eq_prod]
  obtain ⟨-, s2, -⟩ := h.built.size.size h.init _ _ h.field
  rw [h.nbBuf hper] at s2
  have hp := prod_nonneg_of_periodic hper
  rw [valueAt_eq h.glob h.order h.cell.fresh h.cell.comps hcc h0 (by omega) (by rw [h.pixels]; exact hnum.1),
    h.pixels]
  have hlt : (num p x * (f.nbComp * f.nbSub) + (s * f.nbComp + componentNo f.shape cc)).toNat < f.vals.length := by
    have e1 : s * f.nbComp + f.nbComp ≤ f.nbComp * f.nbSub := by nlinarith
    have e2 : num p x + 1 ≤ p.nb.prod := by omega
    have e3 : num p x * (f.nbComp * f.nbSub) + f.nbComp * f.nbSub ≤ f.nbComp * f.nbSub * p.nb.prod := by
      have : 0 ≤ f.nbComp * f.nbSub := mul_nonneg (by omega) (by omega)
      nlinarith
    have e4 : 0 ≤ num p x * (f.nbComp * f.nbSub) := mul_nonneg hnum.1 (mul_nonneg (by omega) (by omega))
    have e5 : 0 ≤ s * f.nbComp := mul_nonneg h0 (by omega)
    omega
  exact ⟨_, List.getElem?_eq_getElem hlt⟩

/-- If the quadrature-point field has the component shape of the nodal field with the directions as last
axis, component `cc` and direction `d` are the index `cc ++ [d]`. -/
theorem C69_components : ∀ {shape cc : List Int} {nd d : Int}, InBox shape cc → 0 ≤ d → d < nd →
    InBox (shape ++ [nd]) (cc ++ [d]) ∧
      componentNo (shape ++ [nd]) (cc ++ [d]) = componentNo shape cc + shape.prod * d
  | [], [], nd, d, _, h0, h1 => by simp [InBox, componentNo, h0, h1]
  | n :: shape, c :: cc, nd, d, h, h0, h1 => by
      obtain ⟨i1, i2⟩ := C69_components h.2.2 h0 h1
      refine ⟨⟨h.1, h.2.1, i1⟩, ?_⟩
      simp only [List.cons_append, componentNo, i2, List.prod_cons]
      ring
  | [], _ :: _, _, _, h, _, _ => by simp [InBox] at h
  | _ :: _, [], _, _, h, _, _ => by simp [InBox] at h

/-- **C69** Fields of collections with another storage order are rejected, after the output was set to
zero: the only order the pixel maps accept is column-major. -/
theorem C69_rejected {srt : SortFn} {op : GradOp α} {p p' : DynamicPixels} {w : List (Coll α U)}
    {nref qref : FieldAt} {cn cq : Coll α U} {fn fq : Field α U} (hn : Stored srt w nref cn fn p)
    (hq : Stored srt w qref cq fq p') (hne : nref ≠ qref) (ho : cn.order ≠ .colMajor ∨ cq.order ≠ .colMajor) :
    op.applyGradientF srt w nref qref =
      (.throw .runtimeError, upd w qref cq fq (List.replicate fq.vals.length 0)) := by
  have hgn : ∃ cn', nref.get (upd w qref cq fq (List.replicate fq.vals.length 0)) = .ok (cn', fn) ∧
      cn'.global = true ∧ cn'.order = cn.order ∧ cn'.fields.find nref.name = some fn ∧ cn'.hasSub fn.tag = true := by
    have hsub : cn.hasSub fn.tag = true := by
      obtain ⟨s1, -⟩ := hn.built.size.size hn.init _ _ hn.field
      unfold Coll.hasSub
      rw [hn.built.size.wf.tags _ _ hn.field]
      simpa using s1
    have hlt : nref.coll < w.length := (List.getElem?_eq_some_iff.1 hn.coll).1
    by_cases hc : nref.coll = qref.coll
    · have hcc : cq = cn := by
        have h1 := hn.coll
        rw [hc, hq.coll] at h1
        exact Option.some.inj h1
      subst hcc
      have hnm : nref.name ≠ qref.name := by
        intro hnm
        apply hne
        cases nref; cases qref
        simp_all
      have hfind : (cq.withField qref.name (fq.withVals (List.replicate fq.vals.length 0))).fields.find nref.name
          = some fn := by
        show (cq.fields.insert qref.name _).find nref.name = _
        rw [SMap.find_insert_ne _ _ hnm]
        exact hn.field
      refine ⟨cq.withField qref.name (fq.withVals (List.replicate fq.vals.length 0)), ?_, hn.glob, rfl, hfind, hsub⟩
      unfold FieldAt.get
      rw [hc, upd_at hq.coll, Res.ok_bind, hfind]
      rfl
    · refine ⟨cn, ?_, hn.glob, rfl, hn.field, hsub⟩
      unfold FieldAt.get
      have : at! (upd w qref cq fq (List.replicate fq.vals.length 0)) nref.coll = .ok cn := by
        rw [at!_eq_ok (by simpa using hlt), List.getElem_set_ne (fun h => hc h.symm)]
        exact congrArg _ (List.getElem?_eq_some_iff.1 hn.coll).2
      rw [this, Res.ok_bind, hn.field]
      rfl
  obtain ⟨cn', g1, g2, g3, g4, g5⟩ := hgn
  have hqsub : cq.hasSub fq.tag = true := by
    obtain ⟨s1, -⟩ := hq.built.size.size hq.init _ _ hq.field
    unfold Coll.hasSub
    rw [hq.built.size.wf.tags _ _ hq.field]
    simpa using s1
  have hqget0 : qref.get w = .ok (cq, fq) := by
    obtain ⟨hlt, hc⟩ := List.getElem?_eq_some_iff.1 hq.coll
    unfold FieldAt.get
    rw [at!_eq_ok hlt, hc, Res.ok_bind, hq.field]
    rfl
  have hfq' : (cq.withField qref.name (fq.withVals (List.replicate fq.vals.length 0))).fields.find qref.name =
      some (fq.withVals (List.replicate fq.vals.length 0)) := SMap.find_insert_self _ _ _
  have hqget : qref.get (upd w qref cq fq (List.replicate fq.vals.length 0)) =
      .ok (cq.withField qref.name (fq.withVals (List.replicate fq.vals.length 0)),
        fq.withVals (List.replicate fq.vals.length 0)) := by
    unfold FieldAt.get
    rw [upd_at hq.coll, Res.ok_bind, hfq']
    rfl
  have hcomp := hn.built.size.comp _ _ hn.field
  have hprep : op.prepare (upd w qref cq fq (List.replicate fq.vals.length 0)) nref qref = .throw .runtimeError := by
    unfold prepare
    rw [g1, Res.ok_bind, hqget, Res.ok_bind]
    simp only [g2, hq.glob]
    rw [if_neg (by simp), if_neg (by simp)]
    by_cases hcmp : fq.nbComp = op.dim * fn.nbComp
    · rw [if_neg (not_not.2 hcmp)]
      by_cases hon : cn.order = .colMajor
      · have hoq := ho.resolve_left (not_not.2 hon)
        have hm1 : ∃ m, FieldMap.mkRows cn' nref.name fn.nbComp .pixel = .ok m := by
          unfold FieldMap.mkRows
          simp only [g4, FieldMap.fieldStride, g5, if_true, Res.ok_bind]
          rw [if_neg (by omega), if_neg (by rw [g3, hon]; simp), if_neg]
          · exact ⟨_, rfl⟩
          · rw [Int.mul_tdiv_cancel_left _ (by omega)]
            simp
        obtain ⟨m, hm⟩ := hm1
        rw [hm, Res.ok_bind]
        have hm2 : FieldMap.mkRows (cq.withField qref.name (fq.withVals (List.replicate fq.vals.length 0)))
            qref.name fn.nbComp .pixel = .throw .runtimeError := by
          unfold FieldMap.mkRows
          rw [hfq']
          have : (cq.withField qref.name (fq.withVals (List.replicate fq.vals.length 0))).hasSub
            (fq.withVals (List.replicate fq.vals.length 0)).tag = true := hqsub
          simp only [FieldMap.fieldStride]
          rw [if_pos this, Res.ok_bind, if_neg (by omega), if_pos hoq]
        rw [hm2]
        rfl
      · have hm1 : FieldMap.mkRows cn' nref.name fn.nbComp .pixel = .throw .runtimeError := by
          unfold FieldMap.mkRows
          simp only [g4, FieldMap.fieldStride, g5, if_true, Res.ok_bind]
          rw [if_neg (by omega), if_pos (by rw [g3]; exact hon)]
        rw [hm1]
        rfl
    · rw [if_pos hcmp]
  unfold applyGradientF zeroThen
  have hz : zeroField w qref = .ok (upd w qref cq fq (List.replicate fq.vals.length 0)) := by
    unfold zeroField
    rw [hqget0, Res.ok_bind]
    rfl
  rw [hz]
  simp only [gradientIncrementF, hprep, Res.throw_bind]

/-! ### An example: displacements on a grid of 2 × 3 pixels with two triangles each -/

def exGradStart (o : StorageOrder) : Coll Int String := Coll.empty true 2 o [("pixel", 1), ("quad", 2)]

/-- Fields "u" with two components and "g" with 2 × 2 components and two quadrature points. -/
def exGradProgram (o : StorageOrder) : List (Op Int String) :=
  [.register "u" .real (.num 2) "pixel" "" false, .register "g" .real (.shape [2, 2]) "quad" "" false,
   .initGlobalOrder [2, 3] [2, 3] [0, 0] o,
   .write "u" 0 1, .write "u" 3 5, .write "u" 4 3, .write "u" 7 6, .write "u" 10 (-2), .write "g" 5 9]

def exGrad (o : StorageOrder) : Coll Int String :=
  ((exGradStart o).run stableSort (exGradProgram o)).getD (exGradStart o)

theorem exGrad_built (o : StorageOrder) : Built stableSort (exGrad o) := by
  refine ⟨true, 2, o, [("quad", 2)], exGradStart o, by simp [SMap.Sorted], ?_, by cases o <;> decide +kernel,
    reachable_of_run (ops := exGradProgram o) ?_ Reachable.start ?_⟩
  · intro t n h
    simp only [SMap.find] at h
    split at h
    · cases h; right; decide
    · cases h
  · intro d op hop
    simp only [exGradProgram, List.mem_cons, List.mem_nil_iff, or_false] at hop
    rcases hop with rfl | rfl | rfl | rfl | rfl | rfl | rfl | rfl | rfl <;>
      simp [Adm, Comps.toNb, getSize]
  · have : ((exGradStart o).run stableSort (exGradProgram o)).isSome = true := by cases o <;> decide +kernel
    unfold exGrad
    rw [Option.isSome_iff_exists] at this
    obtain ⟨c, hc⟩ := this
    rw [hc]; rfl

theorem exGrad_pixels : (exGrad .colMajor).pixels = grid23 := by decide +kernel

/-- The two fields are operands of the operator with two triangles per pixel. -/
theorem exGrad_operands : ∃ op fu fg, make 2 1 2 3 1 triangleGrads triangleNodes = .ok op ∧
    Operand stableSort [exGrad .colMajor] ⟨0, "u"⟩ (exGrad .colMajor) fu grid23 ∧
    Operand stableSort [exGrad .colMajor] ⟨0, "g"⟩ (exGrad .colMajor) fg grid23 ∧ OperandShapes op fu fg ∧
    fu.shape = [2] ∧ fg.shape = [2, 2] := by
  have hu : ((exGrad .colMajor).fields.find "u").map (fun f => (f.nbComp, f.nbSub, f.shape)) =
      some (2, 1, [2]) := by decide +kernel
  have hg : ((exGrad .colMajor).fields.find "g").map (fun f => (f.nbComp, f.nbSub, f.shape)) =
      some (4, 2, [2, 2]) := by decide +kernel
  obtain ⟨fu, hu1, hu2⟩ := Option.map_eq_some_iff.1 hu
  obtain ⟨fg, hg1, hg2⟩ := Option.map_eq_some_iff.1 hg
  simp only [Prod.mk.injEq] at hu2 hg2
  refine ⟨_, fu, fg, rfl, ⟨⟨rfl, hu1, exGrad_built _, by decide +kernel, by decide +kernel, exGrad_pixels⟩,
    by decide +kernel⟩, ⟨⟨rfl, hg1, exGrad_built _, by decide +kernel, by decide +kernel, exGrad_pixels⟩,
    by decide +kernel⟩, ⟨?_, ?_, ?_⟩, hu2.2.2, hg2.2.2⟩
  · show fg.nbComp = 2 * fu.nbComp
    omega
  · exact hu2.2.1
  · exact hg2.2.1

/-- The hypotheses of `C69_gradient`, `C69_transpose` and `C69_values` hold for these fields. -/
example : ∃ op w' w'', make 2 1 2 3 1 triangleGrads triangleNodes = .ok op ∧
    op.applyGradientF stableSort [exGrad .colMajor] ⟨0, "u"⟩ ⟨0, "g"⟩ = (.ok (), w') ∧
    op.applyTransposeF stableSort [exGrad .colMajor] ⟨0, "g"⟩ ⟨0, "u"⟩ [] = (.ok (), w'') := by
  obtain ⟨op, fu, fg, hop, hu, hg, hs, hfu, hfg⟩ := exGrad_operands
  have hv : ValidNodes triangleNodes 2 2 3 1 := by unfold ValidNodes; decide +kernel
  have hnu : fu.nbSub = 1 := by rw [hs.nodes]; cases hop; rfl
  have hng : fg.nbSub = 2 := by rw [hs.quads]; cases hop; rfl
  have vu : ∀ cc (j : Int) x, ∃ v : Int, InBox fu.shape cc → 0 ≤ j → j < (1 : Nat) → InBoxAt grid23.nb grid23.loc x →
      valueAt (exGrad .colMajor) fu cc j x = some v := by
    intro cc j x
    by_cases h : InBox fu.shape cc ∧ 0 ≤ j ∧ j < (1 : Nat) ∧ InBoxAt grid23.nb grid23.loc x
    · obtain ⟨v, hv⟩ := C69_values grid23_periodic hu h.1 h.2.1 (by rw [hnu]; exact h.2.2.1) h.2.2.2
      exact ⟨v, fun _ _ _ _ => hv⟩
    · exact ⟨0, fun h1 h2 h3 h4 => absurd ⟨h1, h2, h3, h4⟩ h⟩
  have vg : ∀ cc (j : Int) x, ∃ v : Int, InBox fg.shape cc → 0 ≤ j → j < ((1 * 2 : Nat) : Int) →
      InBoxAt grid23.nb grid23.loc x → valueAt (exGrad .colMajor) fg cc j x = some v := by
    intro cc j x
    by_cases h : InBox fg.shape cc ∧ 0 ≤ j ∧ j < ((1 * 2 : Nat) : Int) ∧ InBoxAt grid23.nb grid23.loc x
    · obtain ⟨v, hv⟩ := C69_values grid23_periodic hg h.1 h.2.1 (by rw [hng]; exact h.2.2.1) h.2.2.2
      exact ⟨v, fun _ _ _ _ => hv⟩
    · exact ⟨0, fun h1 h2 h3 h4 => absurd ⟨h1, h2, h3, h4⟩ h⟩
  choose u hu' using vu
  choose s hs' using vg
  obtain ⟨w', h1, -⟩ := C69_gradient stableSort_spec hop hv grid23_periodic hu hg (by decide) hs hu'
  obtain ⟨w'', h2, -⟩ := C69_transpose stableSort_spec hop hv grid23_periodic hu hg (by decide) hs hs'
  exact ⟨op, w', w'', hop, h1, h2⟩

/-- Buffers after the gradient of "u" was written to "g", and after the transposed operator then wrote to
"u". -/
example : ((make 2 1 2 3 1 triangleGrads triangleNodes).bind fun op =>
    let r := op.applyGradientF stableSort [exGrad .colMajor] ⟨0, "u"⟩ ⟨0, "g"⟩
    let t := op.applyTransposeF stableSort r.2 ⟨0, "g"⟩ ⟨0, "u"⟩ []
    r.1.bind fun _ => t.1.bind fun _ => .ok ((FieldAt.find ⟨0, "g"⟩ r.2).map (·.vals),
      (FieldAt.find ⟨0, "u"⟩ t.2).map (·.vals))) =
    .ok (some [-1, 5, 2, 0, -3, 6, 0, 1, 1, -5, 0, 1, 3, -6, 2, 0, -3, 6, -3, 0, -2, 0, -2, -6,
        3, -6, -2, -6, 2, 0, -3, 0, -2, 0, 1, 0, -1, 5, 2, 5, 2, 0, 2, 5, 1, -5, 1, 0],
      some [2, -20, 0, 28, 22, -24, -8, 38, 0, 0, -16, -22]) := by
  decide +kernel

/-- The same fields in a row-major collection. -/
theorem exGrad_row : ∃ fu fg p, Stored stableSort [exGrad .rowMajor] ⟨0, "u"⟩ (exGrad .rowMajor) fu p ∧
    Stored stableSort [exGrad .rowMajor] ⟨0, "g"⟩ (exGrad .rowMajor) fg p ∧
    (exGrad .rowMajor).order ≠ .colMajor := by
  have hu : ((exGrad .rowMajor).fields.find "u").isSome = true := by decide +kernel
  have hg : ((exGrad .rowMajor).fields.find "g").isSome = true := by decide +kernel
  obtain ⟨fu, hu1⟩ := Option.isSome_iff_exists.1 hu
  obtain ⟨fg, hg1⟩ := Option.isSome_iff_exists.1 hg
  exact ⟨fu, fg, _, ⟨rfl, hu1, exGrad_built _, by decide +kernel, by decide +kernel, rfl⟩,
    ⟨rfl, hg1, exGrad_built _, by decide +kernel, by decide +kernel, rfl⟩, by decide +kernel⟩

example (op : GradOp Int) : ∃ w', op.applyGradientF stableSort [exGrad .rowMajor] ⟨0, "u"⟩ ⟨0, "g"⟩ =
    (.throw .runtimeError, w') := by
  obtain ⟨fu, fg, p, hu, hg, ho⟩ := exGrad_row
  exact ⟨_, C69_rejected hu hg (by decide) (Or.inl ho)⟩

/-- **C69** Fields of local collections, and a quadrature-point field without one component per direction and
nodal component, are rejected by both operators with their runtime error. -/
theorem C69_mismatch {srt : SortFn} {op : GradOp α} {w : List (Coll α U)} {nref qref : FieldAt}
    {cn cq : Coll α U} {fn fq : Field α U} (hn : nref.get w = .ok (cn, fn)) (hq : qref.get w = .ok (cq, fq))
    (h : cq.global = false ∨ cn.global = false ∨ fq.nbComp ≠ op.dim * fn.nbComp) (a : α) (weights : List α) :
    op.gradientIncrementF srt w nref a qref = .throw .runtimeError ∧
      op.transposeIncrementF srt w qref a nref weights = .throw .runtimeError := by
  have hprep : op.prepare w nref qref = .throw .runtimeError := by
    simp only [prepare, hn, hq, Res.ok_bind]
    by_cases h1 : cq.global = false
    · rw [if_pos h1]
    · rw [if_neg h1]
      by_cases h2 : cn.global = false
      · rw [if_pos h2]
      · rw [if_neg h2, if_pos ((h.resolve_left h1).resolve_left h2)]
  exact ⟨by simp only [gradientIncrementF, hprep, Res.throw_bind],
    by simp only [transposeIncrementF, hprep, Res.throw_bind]⟩

/-- Two local collections. -/
def exGradLocal : List (Coll Int String) :=
  [((Coll.empty false 2 .colMajor [("pixel", 1), ("quad", 2)] : Coll Int String).run stableSort
    [.addPixel 0, .register "u" .real (.num 2) "pixel" "" false, .register "g" .real (.shape [2, 2]) "quad" "" false,
      .initLocal]).getD (exGradStart .colMajor)]

example (op : GradOp Int) : op.gradientIncrementF stableSort exGradLocal ⟨0, "u"⟩ 1 ⟨0, "g"⟩ =
    .throw .runtimeError := by
  obtain ⟨u, hu⟩ : ∃ u, FieldAt.get ⟨0, "u"⟩ exGradLocal = .ok u := ⟨_, by with_unfolding_all rfl⟩
  obtain ⟨g, hg⟩ : ∃ g, FieldAt.get ⟨0, "g"⟩ exGradLocal = .ok g := ⟨_, by with_unfolding_all rfl⟩
  have hl : ((FieldAt.get ⟨0, "g"⟩ exGradLocal).bind fun g => .ok g.1.global) = .ok false := by decide +kernel
  rw [hg] at hl
  exact (C69_mismatch hu hg (Or.inl (by simpa [Res.bind] using hl)) 1 []).1

example : ((FieldAt.get ⟨0, "u"⟩ exGradLocal).bind fun u => (FieldAt.get ⟨0, "g"⟩ exGradLocal).bind fun g =>
      .ok (u.1.global, g.1.global, u.2.nbComp, g.2.nbComp)) = .ok (false, false, 2, 4) ∧
    ((make 2 1 2 3 1 triangleGrads triangleNodes).bind fun op =>
      .ok (op.applyGradientF stableSort exGradLocal ⟨0, "u"⟩ ⟨0, "g"⟩).1) =
        .ok (.throw .runtimeError) := by decide +kernel

/-- **C69, the rule on the location is needed.**  On a subdomain that does not start at the origin the pixel
numbers are negative and both operators are undefined, as in `C32_nonzero_location`. -/
theorem C69_outside :
    (((exGradStart .colMajor).run stableSort
      [.register "u" .real (.num 2) "pixel" "" false, .register "g" .real (.shape [2, 2]) "quad" "" false,
        .initGlobalOrder [4, 3] [2, 3] [2, 0] .colMajor]).map fun c =>
      (make 2 1 2 3 1 triangleGrads triangleNodes).bind fun op =>
        .ok ((op.applyGradientF stableSort [c] ⟨0, "u"⟩ ⟨0, "g"⟩).1,
          (op.applyTransposeF stableSort [c] ⟨0, "g"⟩ ⟨0, "u"⟩ []).1)) = some (.ok (.ub, .ub)) := by
  decide +kernel

end Verif.Props
