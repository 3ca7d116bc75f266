import Mathlib.Algebra.BigOperators.Group.Finset.Sigma
import Verif.Lemmas.GradientMake
/-
C29, C30, C31, C32, C55, C58: the gradient operator.
-/
namespace Verif.Props

open Verif.Ccoord
open Verif.GradOp
open scoped BigOperators

variable {α : Type} [CommRing α]

/-- Two fields with the same number of pixels, sub-points and components, in collections of the same
kind. -/
def SameShape (u v : GField α) : Prop :=
  u.isGlobal = v.isGlobal ∧ u.comps = v.comps ∧ u.subPts = v.subPts ∧ u.nb = v.nb

/-- `u` with the values `F`. -/
def withVal (u : GField α) (F : Nat → Nat → Nat → α) : GField α := { u with val := F }

/-! ## C29 -/

/-- **C29** `apply_gradient` is linear. -/
theorem C29_gradient_linear {srt : SortFn} {op : GradOp α} {p : DynamicPixels} {u v quad g h : GField α}
    (x y : α)
    (hg : op.applyGradient srt p u quad = (.ok (), g)) (hh : op.applyGradient srt p v quad = (.ok (), h)) :
    op.applyGradient srt p (withVal u fun k r j => x * u.val k r j + y * v.val k r j) quad =
      (.ok (), withVal quad fun i r c => x * g.val i r c + y * h.val i r c) := by
  have inv : ∀ {w f : GField α}, op.applyGradient srt p w quad = (.ok (), f) →
      op.gradientIncrement srt p w 1 quad.setZero = .ok f := by
    intro w f hw
    unfold applyGradient at hw
    split at hw
    · rename_i q hq; cases hw; exact hq
    · cases hw
    · cases hw
  obtain ⟨hf, T, hT, hr, rfl⟩ := gradientIncrement_ok.1 (inv hg)
  obtain ⟨hf', T', hT', hr', rfl⟩ := gradientIncrement_ok.1 (inv hh)
  rw [hT] at hT'
  cases hT'
  have : op.gradientIncrement srt p (withVal u fun k r j => x * u.val k r j + y * v.val k r j) 1 quad.setZero =
      .ok (withVal quad fun i r c => x * (0 + 1 * (T.map (op.gradTerm u.val i r c)).sum) +
        y * (0 + 1 * (T.map (op.gradTerm v.val i r c)).sum)) := by
    rw [gradientIncrement_ok]
    refine ⟨hf, T, hT, hr, ?_⟩
    simp only [withVal, GField.setZero, GField.mk.injEq, true_and]
    funext i r c
    simp only [zero_add, one_mul]
    clear hT hr hr' hg hh inv
    induction T with
    | nil => simp
    | cons t T ih =>
      simp only [List.map_cons, List.sum_cons, mul_add, ← ih]
      have : op.gradTerm (fun k r j => x * u.val k r j + y * v.val k r j) i r c t =
          x * op.gradTerm u.val i r c t + y * op.gradTerm v.val i r c t := by
        unfold gradTerm
        split
        · simp only [add_mul, Finset.sum_add_distrib, Finset.mul_sum, mul_assoc]
        · simp
      rw [this]
      ring
  simp only [applyGradient, this]
  rfl

/-- **C29** Whether an application succeeds does not depend on the values of the fields. -/
theorem C29_gradient_outcome {srt : SortFn} {op : GradOp α} {p : DynamicPixels} {u v quad g : GField α}
    (huv : SameShape u v) (hg : op.applyGradient srt p u quad = (.ok (), g)) :
    ∃ h, op.applyGradient srt p v quad = (.ok (), h) ∧ SameShape quad h := by
  unfold applyGradient at hg
  split at hg
  · rename_i q hq
    obtain ⟨hf, T, hT, hr, rfl⟩ := gradientIncrement_ok.1 hq
    have : op.gradientIncrement srt p v 1 quad.setZero =
        .ok (withVal quad fun i r c => 0 + 1 * (T.map (op.gradTerm v.val i r c)).sum) := by
      rw [gradientIncrement_ok]
      refine ⟨?_, T, hT, ?_, rfl⟩
      · unfold Fits at hf ⊢; rw [← huv.1, ← huv.2.1, ← huv.2.2.1]; exact hf
      · rw [← huv.2.2.2]; exact hr
    obtain ⟨h, hh, hs⟩ : ∃ h, op.gradientIncrement srt p v 1 quad.setZero = .ok h ∧ SameShape quad h :=
      ⟨_, this, rfl, rfl, rfl, rfl⟩
    exact ⟨h, by simp only [applyGradient, hh], hs⟩
  · cases hg
  · cases hg

/-- **C29** `apply_gradient_increment` adds `a` times the gradient to the previous values. -/
theorem C29_gradient_increment {srt : SortFn} {op : GradOp α} {p : DynamicPixels} {u quad g : GField α}
    (a : α) (hg : op.applyGradient srt p u quad = (.ok (), g)) :
    op.gradientIncrement srt p u a quad =
      .ok (withVal quad fun i r c => quad.val i r c + a * g.val i r c) := by
  unfold applyGradient at hg
  split at hg
  · rename_i q hq
    cases hg
    obtain ⟨hf, T, hT, hr, rfl⟩ := gradientIncrement_ok.1 hq
    rw [gradientIncrement_ok]
    refine ⟨hf, T, hT, hr, ?_⟩
    simp only [withVal, GField.setZero, zero_add, one_mul]
  · cases hg
  · cases hg

/-- **C29** `apply_transpose` is linear, for any weights. -/
theorem C29_transpose_linear {srt : SortFn} {op : GradOp α} {p : DynamicPixels} {s t nodal g h : GField α}
    {w : List α} (x y : α)
    (hg : op.applyTranspose srt p s nodal w = (.ok (), g))
    (hh : op.applyTranspose srt p t nodal w = (.ok (), h)) :
    op.applyTranspose srt p (withVal s fun k r j => x * s.val k r j + y * t.val k r j) nodal w =
      (.ok (), withVal nodal fun i r c => x * g.val i r c + y * h.val i r c) := by
  have inv : ∀ {z f : GField α}, op.applyTranspose srt p z nodal w = (.ok (), f) →
      op.transposeIncrement srt p z 1 nodal.setZero w = .ok f := by
    intro z f hw
    unfold applyTranspose at hw
    split at hw
    · rename_i q hq; cases hw; exact hq
    · cases hw
    · cases hw
  obtain ⟨hf, T, hT, hr, rfl⟩ := transposeIncrement_ok.1 (inv hg)
  obtain ⟨hf', T', hT', hr', rfl⟩ := transposeIncrement_ok.1 (inv hh)
  rw [hT] at hT'
  cases hT'
  have : op.transposeIncrement srt p (withVal s fun k r j => x * s.val k r j + y * t.val k r j) 1
      nodal.setZero w =
      .ok (withVal nodal fun i r c =>
        x * (0 + 1 * (T.map (op.transTerm s.val (op.pixelWeight (op.theWeights w)) i r c)).sum) +
        y * (0 + 1 * (T.map (op.transTerm t.val (op.pixelWeight (op.theWeights w)) i r c)).sum)) := by
    rw [transposeIncrement_ok]
    refine ⟨hf, T, hT, hr, ?_⟩
    simp only [withVal, GField.setZero, GField.mk.injEq, true_and]
    funext i r c
    simp only [zero_add, one_mul]
    clear hT hr hr' hg hh inv
    generalize op.pixelWeight (op.theWeights w) = W
    induction T with
    | nil => simp
    | cons τ T ih =>
      simp only [List.map_cons, List.sum_cons, mul_add, ← ih]
      have : op.transTerm (fun k r j => x * s.val k r j + y * t.val k r j) W i r c τ =
          x * op.transTerm s.val W i r c τ + y * op.transTerm t.val W i r c τ := by
        unfold transTerm
        split
        · simp only [add_mul, Finset.sum_add_distrib, Finset.mul_sum, mul_assoc]
        · simp
      rw [this]
      ring
  simp only [applyTranspose, this]
  rfl

/-- **C29** Whether a transposed application succeeds does not depend on the values of the fields. -/
theorem C29_transpose_outcome {srt : SortFn} {op : GradOp α} {p : DynamicPixels} {s t nodal g : GField α}
    {w : List α} (hst : SameShape s t) (hg : op.applyTranspose srt p s nodal w = (.ok (), g)) :
    ∃ h, op.applyTranspose srt p t nodal w = (.ok (), h) ∧ SameShape nodal h := by
  unfold applyTranspose at hg
  split at hg
  · rename_i q hq
    obtain ⟨hf, T, hT, hr, rfl⟩ := transposeIncrement_ok.1 hq
    have : op.transposeIncrement srt p t 1 nodal.setZero w =
        .ok (withVal nodal fun i r c =>
          0 + 1 * (T.map (op.transTerm t.val (op.pixelWeight (op.theWeights w)) i r c)).sum) := by
      rw [transposeIncrement_ok]
      refine ⟨?_, T, hT, ?_, rfl⟩
      · unfold Fits at hf ⊢; rw [← hst.1, ← hst.2.1, ← hst.2.2.1]; exact hf
      · rw [← hst.2.2.2]; exact hr
    obtain ⟨h, hh, hs⟩ : ∃ h, op.transposeIncrement srt p t 1 nodal.setZero w = .ok h ∧ SameShape nodal h :=
      ⟨_, this, rfl, rfl, rfl, rfl⟩
    exact ⟨h, by simp only [applyTranspose, hh], hs⟩
  · cases hg
  · cases hg

/-- **C29** `apply_transpose_increment` adds `a` times the transposed application. -/
theorem C29_transpose_increment {srt : SortFn} {op : GradOp α} {p : DynamicPixels} {s nodal g : GField α}
    {w : List α} (a : α) (hg : op.applyTranspose srt p s nodal w = (.ok (), g)) :
    op.transposeIncrement srt p s a nodal w =
      .ok (withVal nodal fun i r c => nodal.val i r c + a * g.val i r c) := by
  unfold applyTranspose at hg
  split at hg
  · rename_i q hq
    cases hg
    obtain ⟨hf, T, hT, hr, rfl⟩ := transposeIncrement_ok.1 hq
    rw [transposeIncrement_ok]
    refine ⟨hf, T, hT, hr, ?_⟩
    simp only [withVal, GField.setZero, zero_add, one_mul]
  · cases hg
  · cases hg

/-! ### A concrete operator: linear elements in one dimension -/

/-- Linear element on a segment: two nodes, gradient `u(x+1) - u(x)`, `nq` quadrature points. -/
def segment (nq : Nat) : Res (GradOp Int) :=
  GradOp.make 1 nq 1 2 1 (List.replicate nq [⟨1, 2, fun _ i => if i = 0 then -1 else 1⟩])
    [([0, 0], ⟨2, 1, fun i _ => i⟩)]

/-- A periodic line of three pixels. -/
def line3 : DynamicPixels := ⟨[3], [0], [1], [0], true⟩

/-- The first `nb` values of component and column zero. -/
def firstValues (f : GField Int) : List Int := (List.range f.nb).map (fun k => f.val k 0 0)

/-- Gradient of the values 5, 7, 4 on a periodic line: 2, -3, 1. -/
example : ((segment 1).bind fun op =>
      let r := op.applyGradient stableSort line3
        ⟨true, 1, 1, 3, fun k _ _ => if k = 0 then 5 else if k = 1 then 7 else 4⟩
        ⟨true, 1, 1, 3, fun _ _ _ => 99⟩
      r.1.bind fun _ => .ok (firstValues r.2)) = .ok [2, -3, 1] := by decide +kernel

/-- Transposed application to 2, -3, 1: -1, 5, -4. -/
example : ((segment 1).bind fun op =>
      let r := op.applyTranspose stableSort line3
        ⟨true, 1, 1, 3, fun k _ _ => if k = 0 then 2 else if k = 1 then -3 else 1⟩
        ⟨true, 1, 1, 3, fun _ _ _ => 99⟩ []
      r.1.bind fun _ => .ok (firstValues r.2)) = .ok [-1, 5, -4] := by decide +kernel

/-! ## C30 -/

/-- Scalar product of the entries of two fields: pixels, rows, columns. -/
def inner (nb rows cols : Nat) (f g : Nat → Nat → Nat → α) : α :=
  ∑ k ∈ Finset.range nb, ∑ r ∈ Finset.range rows, ∑ c ∈ Finset.range cols, f k r c * g k r c

theorem inner_gradTerm (op : GradOp α) (T : List (Int × Nat × Int)) {nbq nbn : Nat} (hT : InRange nbq nbn T)
    (rows : Nat) (s u : Nat → Nat → Nat → α) :
    inner nbq rows op.nbGrad s (fun i r c => (T.map (op.gradTerm u i r c)).sum) =
      (T.map (fun t => ∑ r ∈ Finset.range rows, ∑ c ∈ Finset.range op.nbGrad, ∑ j ∈ Finset.range op.nbPixNodes,
        s t.1.toNat r c * (u t.2.2.toNat r j * op.B c (t.2.1 * op.nbPixNodes + j)))).sum := by
  induction T with
  | nil => simp [inner]
  | cons t T ih =>
    rw [List.map_cons, List.sum_cons, ← ih (fun t' ht' => hT t' (by simp [ht']))]
    simp only [inner, List.map_cons, List.sum_cons, mul_add, Finset.sum_add_distrib]
    congr 1
    have h1 := (hT t (by simp)).1
    rw [Finset.sum_eq_single t.1.toNat]
    · refine Finset.sum_congr rfl fun r _ => Finset.sum_congr rfl fun c _ => ?_
      rw [gradTerm, if_pos (by omega), Finset.mul_sum]
    · intro i _ hne
      refine Finset.sum_eq_zero fun r _ => Finset.sum_eq_zero fun c _ => ?_
      rw [gradTerm, if_neg (by omega), mul_zero]
    · intro h
      exact absurd (Finset.mem_range.2 (by omega)) h

theorem inner_transTerm (op : GradOp α) (T : List (Int × Nat × Int)) {nbq nbn : Nat} (hT : InRange nbq nbn T)
    (rows : Nat) (s u : Nat → Nat → Nat → α) (w : Int → α) :
    inner nbn rows op.nbPixNodes u (fun k r j => (T.map (op.transTerm s w k r j)).sum) =
      (T.map (fun t => ∑ r ∈ Finset.range rows, ∑ c ∈ Finset.range op.nbGrad, ∑ j ∈ Finset.range op.nbPixNodes,
        (w t.1 * s t.1.toNat r c) * (u t.2.2.toNat r j * op.B c (t.2.1 * op.nbPixNodes + j)))).sum := by
  induction T with
  | nil => simp [inner]
  | cons t T ih =>
    rw [List.map_cons, List.sum_cons, ← ih (fun t' ht' => hT t' (by simp [ht']))]
    simp only [inner, List.map_cons, List.sum_cons, mul_add, Finset.sum_add_distrib]
    congr 1
    have h1 := (hT t (by simp)).2
    rw [Finset.sum_eq_single t.2.2.toNat]
    · refine Finset.sum_congr rfl fun r _ => ?_
      rw [Finset.sum_comm]
      refine Finset.sum_congr rfl fun j _ => ?_
      rw [transTerm, if_pos (by omega), Finset.mul_sum]
      exact Finset.sum_congr rfl fun c _ => by ring
    · intro i _ hne
      refine Finset.sum_eq_zero fun r _ => Finset.sum_eq_zero fun c _ => ?_
      rw [transTerm, if_neg (by omega), mul_zero]
    · intro h
      exact absurd (Finset.mem_range.2 (by omega)) h

/-- **C30**, what the code computes: the transposed operator is the adjoint of the gradient with
respect to a scalar product in which all quadrature points of pixel `i` have the same weight
`weights[i % (number of quadrature points per pixel)]` (ones by default).  Compare `C30_statement`. -/
theorem C30_actual_partial {srt : SortFn} {op : GradOp α} {p : DynamicPixels} {u s quad nodal g t : GField α}
    {w : List α} (hu : SameShape u nodal)
    (hg : op.applyGradient srt p u quad = (.ok (), g))
    (ht : op.applyTranspose srt p s nodal w = (.ok (), t)) :
    inner s.nb u.comps op.nbGrad (fun i r c => op.pixelWeight (op.theWeights w) i * s.val i r c) g.val =
      inner u.nb u.comps op.nbPixNodes u.val t.val := by
  unfold applyGradient at hg
  unfold applyTranspose at ht
  split at hg
  · rename_i q hq
    split at ht
    · rename_i q' hq'
      obtain ⟨hf, T, hT, hr, rfl⟩ := gradientIncrement_ok.1 hq
      obtain ⟨hf', T', hT', hr', rfl⟩ := transposeIncrement_ok.1 hq'
      rw [hT] at hT'
      cases hT'
      cases hg
      cases ht
      simp only [GField.setZero, zero_add, one_mul]
      have hr0 := hr'.1
      simp only [GField.setZero] at hr0
      rw [hu.2.2.2, inner_gradTerm op T hr0, inner_transTerm op T hr0]
      refine congrArg List.sum (List.map_congr_left fun τ hτ => ?_)
      have := (hr0 τ hτ).1
      rw [show ((τ.1.toNat : Nat) : Int) = τ.1 by omega]
    · cases ht
    · cases ht
  · cases hg
  · cases hg

/-- **C30** for the default weights: the transposed operator is the adjoint of the gradient. -/
theorem C30_default {srt : SortFn} {op : GradOp α} {p : DynamicPixels} {u s quad nodal g t : GField α}
    (hu : SameShape u nodal)
    (hg : op.applyGradient srt p u quad = (.ok (), g))
    (ht : op.applyTranspose srt p s nodal [] = (.ok (), t)) :
    inner s.nb u.comps op.nbGrad s.val g.val = inner u.nb u.comps op.nbPixNodes u.val t.val := by
  rw [← C30_actual_partial hu hg ht]
  simp only [theWeights, List.length_nil, if_true]
  unfold inner
  by_cases h0 : op.nbPixelQuad = 0
  · have : op.nbGrad = 0 := by
      simp only [nbPixelQuad] at h0
      simp only [nbGrad, Nat.mul_assoc, h0, Nat.mul_zero]
    simp [this]
  · refine Finset.sum_congr rfl fun i _ => Finset.sum_congr rfl fun r _ => Finset.sum_congr rfl fun c _ => ?_
    have : op.pixelWeight (List.replicate op.nbPixelQuad 1) (i : Int) = 1 := by
      unfold pixelWeight
      have h1 : ((i : Int).tmod op.nbPixelQuad).toNat < op.nbPixelQuad := by
        rw [Int.tmod_eq_emod_of_nonneg (by omega)]
        have := Int.emod_lt_of_pos (i : Int) (show (0 : Int) < op.nbPixelQuad by omega)
        omega
      simp [h1]
    simp only [this, one_mul]

/-- **C30** if all weights are equal. -/
theorem C30_uniform_partial {srt : SortFn} {op : GradOp α} {p : DynamicPixels}
    {u s quad nodal g t : GField α} (w : α) (h0 : op.nbPixelQuad ≠ 0)
    (hu : SameShape u nodal) (hg : op.applyGradient srt p u quad = (.ok (), g))
    (ht : op.applyTranspose srt p s nodal (List.replicate op.nbPixelQuad w) = (.ok (), t)) :
    inner s.nb u.comps op.nbGrad (fun i r c => w * s.val i r c) g.val =
      inner u.nb u.comps op.nbPixNodes u.val t.val := by
  rw [← C30_actual_partial hu hg ht]
  unfold inner
  refine Finset.sum_congr rfl fun i _ => Finset.sum_congr rfl fun r _ => Finset.sum_congr rfl fun c _ => ?_
  have : op.pixelWeight (op.theWeights (List.replicate op.nbPixelQuad w)) (i : Int) = w := by
    unfold pixelWeight
    rw [theWeights, if_neg (by simpa using h0)]
    have h1 : ((i : Int).tmod op.nbPixelQuad).toNat < op.nbPixelQuad := by
      rw [Int.tmod_eq_emod_of_nonneg (by omega)]
      have := Int.emod_lt_of_pos (i : Int) (show (0 : Int) < op.nbPixelQuad by omega)
      omega
    simp [h1]
  simp only [this]

/-- **C30** as documented: with one weight per quadrature point of a pixel (column `c` of the pixel map
belongs to quadrature point `c / dim`), the transposed operator is the adjoint of the gradient with
respect to the weighted scalar product. -/
def C30_statement : Prop :=
  ∀ (srt : SortFn) (op : GradOp Int) (p : DynamicPixels) (u s quad nodal g t : GField Int) (w : List Int),
    SortSpec srt → w.length = op.nbPixelQuad → SameShape s quad → SameShape u nodal →
    op.applyGradient srt p u quad = (.ok (), g) → op.applyTranspose srt p s nodal w = (.ok (), t) →
    inner s.nb u.comps op.nbGrad (fun i r c => (w[c / op.dim]?).getD 0 * s.val i r c) g.val =
      inner u.nb u.comps op.nbPixNodes u.val t.val

/-- Nodal values 5, 7, 4. -/
def nodal3 : GField Int := ⟨true, 1, 1, 3, fun k _ _ => if k = 0 then 5 else if k = 1 then 7 else 4⟩

/-- A quadrature-point field with two points per pixel. -/
def quad3 : GField Int := ⟨true, 1, 2, 3, fun _ _ _ => 99⟩

/-- The operator with two quadrature points. -/
def segment2 : GradOp Int := ⟨1, 2, 1, 2, 1, fun _ j => if j = 0 then -1 else 1⟩

/-- Nodal values 1, 0, 2. -/
def nodalOther : GField Int := ⟨true, 1, 1, 3, fun k _ _ => if k = 0 then 1 else if k = 1 then 0 else 2⟩

/-- Other values at the quadrature points. -/
def quadOther : GField Int := ⟨true, 1, 2, 3, fun k _ c => k + 2 * c⟩

/-- The operator can be applied to these fields and the hypotheses of the theorems on linearity and on the adjoint hold
for them. -/
theorem exApplied :
    (∃ g, segment2.applyGradient stableSort line3 nodal3 quad3 = (.ok (), g)) ∧
    (∃ g, segment2.applyGradient stableSort line3 nodalOther quad3 = (.ok (), g)) ∧
    (∃ g, segment2.applyTranspose stableSort line3 quad3 nodal3 [] = (.ok (), g)) ∧
    (∃ g, segment2.applyTranspose stableSort line3 quadOther nodal3 [] = (.ok (), g)) ∧
    (∃ g, segment2.applyTranspose stableSort line3 quadOther nodal3 (List.replicate 2 3) = (.ok (), g)) :=
  ⟨⟨_, by with_unfolding_all rfl⟩, ⟨_, by with_unfolding_all rfl⟩, ⟨_, by with_unfolding_all rfl⟩,
    ⟨_, by with_unfolding_all rfl⟩, ⟨_, by with_unfolding_all rfl⟩⟩

example := C29_gradient_linear 2 (-3) exApplied.1.choose_spec exApplied.2.1.choose_spec
example := C29_gradient_outcome (u := nodal3) (v := nodalOther) ⟨rfl, rfl, rfl, rfl⟩ exApplied.1.choose_spec
example := C29_gradient_increment 5 exApplied.1.choose_spec
example := C29_transpose_linear 2 (-3) exApplied.2.2.1.choose_spec exApplied.2.2.2.1.choose_spec
example := C29_transpose_outcome (s := quad3) (t := quadOther) ⟨rfl, rfl, rfl, rfl⟩ exApplied.2.2.1.choose_spec
example := C29_transpose_increment 5 exApplied.2.2.2.1.choose_spec
example := C30_actual_partial (u := nodal3) (nodal := nodal3) ⟨rfl, rfl, rfl, rfl⟩ exApplied.1.choose_spec
  exApplied.2.2.2.2.choose_spec
example := C30_default (u := nodalOther) (nodal := nodal3) ⟨rfl, rfl, rfl, rfl⟩ exApplied.2.1.choose_spec
  exApplied.2.2.2.1.choose_spec
example := C30_uniform_partial (op := segment2) 3 (by decide) (u := nodal3) (nodal := nodal3) ⟨rfl, rfl, rfl, rfl⟩
  exApplied.1.choose_spec exApplied.2.2.2.2.choose_spec

/-- **C30** is false: weights are looked up by pixel number.  With weights 3 (first point) and 5
(second point) on the segment, the second pixel's values are weighted by 5 at both points. -/
theorem C30_false : ¬ C30_statement := by
  intro h
  have key := h stableSort segment2 line3 nodal3
    ⟨true, 1, 2, 3, fun k _ c => if k = 1 then (if c = 0 then 1 else 0) else 0⟩ quad3 nodal3
    (segment2.applyGradient stableSort line3 nodal3 quad3).2
    (segment2.applyTranspose stableSort line3
      ⟨true, 1, 2, 3, fun k _ c => if k = 1 then (if c = 0 then 1 else 0) else 0⟩ nodal3 [3, 5]).2 [3, 5]
    stableSort_spec rfl ⟨rfl, rfl, rfl, rfl⟩ ⟨rfl, rfl, rfl, rfl⟩
    (Prod.ext (by decide +kernel) rfl) (Prod.ext (by decide +kernel) rfl)
  revert key
  decide +kernel

/-- The operator of the counterexample is the one the constructor builds (compared on its entries). -/
example : ∃ op, segment 2 = .ok op ∧ op.dim = 1 ∧ op.nbQuad = 2 ∧ op.nbPixNodes = 1 ∧
    (List.range 2).map (fun r => (List.range 2).map (op.B r)) =
      (List.range 2).map (fun r => (List.range 2).map (segment2.B r)) := by
  refine ⟨_, rfl, rfl, rfl, rfl, ?_⟩
  decide +kernel

/-! ## C32, C31, C55: values on a periodic grid -/

/-- The nodal field holds the function `U` of the pixel coordinates. -/
def Holds (p : DynamicPixels) (f : GField α) (U : List Int → Nat → Nat → α) : Prop :=
  ∀ x (k : Nat), InBoxAt p.nb p.loc x → p.getIndex x = .ok (k : Int) → ∀ r j, f.val k r j = U x r j

/-- Both fields have exactly one entry per pixel of the grid. -/
def OnGrid (p : DynamicPixels) (f : GField α) : Prop := f.nb = p.nb.prod.toNat

/-- A grid made by a global collection in either storage order, with origin zero and no axis with a
single point between two axes with several points, is periodic in the sense of the theorems below. -/
theorem periodic_of_ordered {srt : SortFn} (hsrt : SortSpec srt) (colMajor : Bool) (nb : List Int) (hp : Pos nb)
    (h1 : 1 ≤ nb.length) (h3 : nb.length ≤ 3) (hu : NoInnerUnit nb) :
    ∃ p, DynamicPixels.mkOrdered srt colMajor nb (List.replicate nb.length 0) = .ok p ∧
      Periodic p nb.length ∧ p.nb = nb := by
  obtain ⟨p, hk, hg, hc, hn, hl, -⟩ := ordered_good hsrt colMajor (loc := List.replicate nb.length 0) hp h1 h3
    (by simp) hu
  exact ⟨p, hk, ⟨hg, hc, by rw [hl, hn], by rw [hn], h1, h3⟩, hn⟩

theorem line3_periodic : Periodic line3 1 where
  good := ⟨rfl, rfl, by decide, ⟨by decide, rfl, trivial⟩⟩
  contiguous := rfl
  origin := rfl
  dim_eq := rfl
  dim_pos := by decide
  dim_le := by decide

theorem exFits : segment2.Fits nodal3 quad3 := ⟨rfl, rfl, rfl, by decide, rfl, rfl⟩

theorem getIndex_num {p : DynamicPixels} {dim : Nat} (h : Periodic p dim) {x : List Int}
    (hx : InBoxAt p.nb p.loc x) : p.getIndex x = .ok (((num p x).toNat : Nat) : Int) := by
  rw [DynamicPixels.getIndex_of_inBox h.good.strides_len hx]
  have := (h.num_bounds hx).1
  show Res.ok (num p x) = _
  rw [Int.toNat_of_nonneg this]

/-- Value of the gradient in terms of the matrix of the operator. -/
theorem gradient_matrix {srt : SortFn} (hsrt : SortSpec srt) {op : GradOp α} {p : DynamicPixels}
    (hper : Periodic p op.dim) {nodal quad : GField α} (hfit : op.Fits nodal quad) (hn : OnGrid p nodal)
    (hq : OnGrid p quad) {U : List Int → Nat → Nat → α} (hU : Holds p nodal U) (a : α) :
    ∃ g, op.gradientIncrement srt p nodal a quad = .ok g ∧ SameShape quad g ∧
      ∀ x (k : Nat), InBoxAt p.nb p.loc x → p.getIndex x = .ok (k : Int) → ∀ r c,
        g.val k r c = quad.val k r c + a * ∑ o ∈ Finset.range (2 ^ op.dim), ∑ j ∈ Finset.range op.nbPixNodes,
          U (wrap p.nb x (corner op.dim o)) r j * op.B c (o * op.nbPixNodes + j) := by
  obtain ⟨L, h1, h2, h3, h4⟩ := hper.visits hsrt
  have hbox : ∀ i, i < L.length → InBoxAt p.nb p.loc ((L[i]?).getD []) := by
    intro i hi
    rw [List.getElem?_eq_getElem hi]
    exact (h2 _).1 (List.getElem_mem hi)
  refine ⟨_, gradientIncrement_ok.2 ⟨hfit, _, h4, ?_, rfl⟩, ⟨rfl, rfl, rfl, rfl⟩, ?_⟩
  · intro t ht
    obtain ⟨i, hi, ht⟩ := List.mem_flatMap.1 ht
    obtain ⟨o, ho, rfl⟩ := List.mem_map.1 ht
    have hi' := List.mem_range.1 hi
    have hb := hper.num_bounds (hper.wrap_inBox (hbox i hi') (corner_length op.dim o))
    unfold OnGrid at hn hq
    refine ⟨⟨by simp, ?_⟩, hb.1, ?_⟩
    · simp only; omega
    · simp only; omega
  · intro x k hx hk r c
    simp only
    congr 2
    rw [sum_flat]
    obtain ⟨i, hi, rfl⟩ := List.getElem_of_mem ((h2 x).2 hx)
    have hik : i = k := by
      rw [h3 i hi] at hk
      have := Res.ok.inj hk
      omega
    subst hik
    rw [Finset.sum_eq_single i]
    · refine Finset.sum_congr rfl fun o _ => ?_
      rw [gradTerm, if_pos rfl]
      refine Finset.sum_congr rfl fun j _ => ?_
      simp only [List.getElem?_eq_getElem hi, Option.getD_some]
      have hw := hper.wrap_inBox hx (corner_length op.dim o)
      rw [hU _ _ hw (getIndex_num hper hw)]
    · intro j _ hne
      refine Finset.sum_eq_zero fun o _ => ?_
      rw [gradTerm, if_neg]
      simp only
      omega
    · intro h; exact absurd (Finset.mem_range.2 hi) h

/-- **C32** on grids whose origin is zero: for fields of the right size no access leaves the
subdomain, and the gradient is computed.  Missing: subdomains whose location is not zero, for which the
claim is false (`C32_false`, `C32_nonzero_location`). -/
theorem C32_partial {srt : SortFn} (hsrt : SortSpec srt) {op : GradOp α} {p : DynamicPixels}
    (hper : Periodic p op.dim) {nodal quad : GField α} (hfit : op.Fits nodal quad) (hn : OnGrid p nodal)
    (hq : OnGrid p quad) (a : α) : ∃ g, op.gradientIncrement srt p nodal a quad = .ok g := by
  obtain ⟨g, hg, -⟩ := gradient_matrix hsrt hper hfit hn hq
    (U := fun x r j => nodal.val (num p x).toNat r j)
    (fun x k hx hk r j => by
      have := getIndex_num hper hx
      rw [hk] at this
      have := Res.ok.inj this
      simp only [show (num p x).toNat = k by omega]) a
  exact ⟨g, hg⟩

example := C32_partial stableSort_spec line3_periodic (op := segment2) (nodal := nodal3) (quad := quad3) exFits rfl rfl 7

/-- **C32**: on every grid a collection accepts, wherever its subdomain lies. -/
def C32_statement : Prop :=
  ∀ (srt : SortFn) (op : GradOp Int) (nb loc : List Int) (p : DynamicPixels) (nodal quad : GField Int),
    SortSpec srt → DynamicPixels.mkOrdered srt true nb loc = .ok p → p.Good → nb.length = op.dim →
    op.Fits nodal quad → OnGrid p nodal → OnGrid p quad →
    op.gradientIncrement srt p nodal 1 quad ≠ .ub

/-- **C32** is false: two pixels at location 2. -/
theorem C32_false : ¬ C32_statement := by
  intro h
  refine h stableSort segment2 [2] [2] ⟨[2], [2], [1], [0], true⟩ ⟨true, 1, 1, 2, fun _ _ _ => 0⟩
    ⟨true, 1, 2, 2, fun _ _ _ => 0⟩ stableSort_spec (by decide) ⟨rfl, rfl, by decide, ⟨by decide, rfl, trivial⟩⟩ rfl
    ⟨rfl, rfl, rfl, by decide, rfl, rfl⟩ rfl rfl ?_
  rfl

/-- **C32** fails for every subdomain that does not start at the origin: whatever the operator, the
fields and the (dense) pixel numbering, the behaviour of an application to fields of fitting shape is
undefined. -/
theorem C32_nonzero_location {srt : SortFn} (hsrt : SortSpec srt) {op : GradOp α} {p : DynamicPixels}
    (hgood : p.Good) (hc : p.contiguous = true) (hdim : p.nb.length = op.dim) (h1 : 1 ≤ op.dim) (h3 : op.dim ≤ 3)
    (hl0 : ∀ l ∈ p.loc, 0 ≤ l) (hl1 : ∃ l ∈ p.loc, 0 < l) {nodal quad : GField α} (hfit : op.Fits nodal quad)
    (a : α) : op.gradientIncrement srt p nodal a quad = .ub := by
  obtain ⟨L, g1, g2, g3, g4, g5, g6⟩ := hgood.visited hc
  have hsl : p.loc.length = p.strides.length := by rw [hgood.loc_len, hgood.strides_len]
  have hnl : p.nb.length = p.strides.length := hgood.strides_len.symm
  -- it does not throw
  have hnt : ∀ e, op.gradientIncrement srt p nodal a quad ≠ .throw e := by
    intro e
    obtain ⟨f1, f2, f3, f4, f5, f6⟩ := hfit
    unfold gradientIncrement
    rw [if_neg (by simp [f1]), if_neg (by simp [f2]), if_neg (by simp [f3]), if_neg (by simp [f4, f5, f6]),
      offsets_eq hsrt h1 h3, g6]
    simp only [Res.ok_bind]
    refine pixelLoop_noThrow ?_ hsl hnl _ ?_ _ ?_ _ _
    · intro id i k s e
      simp only [gradBody, GField.getAt]
      split
      · simp only [Res.ok_bind, GField.addAt]
        split <;> simp
      · simp
    · intro o ho
      obtain ⟨k, -, rfl⟩ := List.mem_map.1 ho
      simp [corner_length, hdim]
    · intro x hx
      obtain ⟨k, hk, rfl⟩ := List.mem_map.1 hx
      have hk' := List.mem_range.1 hk
      simp only [List.getElem?_eq_getElem hk', Option.getD_some]
      exact (InBoxAt.lengths ((g4 _).1 (List.getElem_mem hk'))).2
  cases hres : op.gradientIncrement srt p nodal a quad with
  | ub => rfl
  | throw e => exact absurd hres (hnt e)
  | ok g =>
    exfalso
    obtain ⟨-, T, hT, hr, -⟩ := gradientIncrement_ok.1 hres
    obtain ⟨x, x1, x2, x3⟩ := multiple_exists hgood.pos hgood.loc_len hl0
    obtain ⟨i, hi, rfl⟩ := List.getElem_of_mem ((g4 x).2 x1)
    -- the access for this pixel and the first corner
    simp only [GradOp.visits, offsets_eq hsrt h1 h3, g6, Res.ok_bind] at hT
    have hT' : triples p ((List.range (2 ^ op.dim)).map (fun k => (k, corner op.dim k)))
        ((List.range L.length).map (fun k : Nat => ((k : Int), (L[k]?).getD []))) =
        .ok ((List.range L.length).flatMap (fun i : Nat => (List.range (2 ^ op.dim)).map (fun o =>
          ((i : Int), o, num p (List.zipWith Int.tmod (List.zipWith (· + ·) ((L[i]?).getD [])
            (corner op.dim o)) p.nb))))) := by
      refine triples_eq fun i hi => ?_
      have hi' : i < L.length := List.mem_range.1 hi
      have hx : InBoxAt p.nb p.loc L[i] := (g4 _).1 (List.getElem_mem hi')
      simp only [List.getElem?_eq_getElem hi', Option.getD_some]
      refine offTriples_eq (g := fun o => List.zipWith Int.tmod (List.zipWith (· + ·) L[i] o) p.nb)
        fun k _ => ⟨?_, ?_⟩
      · unfold shiftCcoord
        rw [if_neg (by rw [(InBoxAt.lengths hx).2, corner_length, hdim]; simp), if_neg]
        simp only [List.any_eq_true, beq_iff_eq, not_exists, not_and]
        intro n hn h0
        have := hgood.pos n hn
        omega
      · have hlen : (List.zipWith Int.tmod (List.zipWith (· + ·) L[i] (corner op.dim k)) p.nb).length =
            p.strides.length := by
          simp [(InBoxAt.lengths hx).2, corner_length, hdim, ← hnl]
        simp only [DynamicPixels.getIndex, getIndexFromStrides, hsl, hlen, ne_eq, not_true_eq_false, if_false]
        rw [indexSum_eq_dot hsl hlen]
        rfl
    rw [hT] at hT'
    cases hT'
    have hm := hr ((i : Int), 0, num p (List.zipWith Int.tmod (List.zipWith (· + ·) ((L[i]?).getD [])
        (corner op.dim 0)) p.nb))
      (List.mem_flatMap.2 ⟨i, List.mem_range.2 hi, List.mem_map.2 ⟨0, List.mem_range.2 (by positivity), rfl⟩⟩)
    simp only [List.getElem?_eq_getElem hi, Option.getD_some, corner_zero, ← hdim, x3] at hm
    have hneg := dot_neg_of_loc hsl hgood.strides_pos hl0 hl1
    have := hm.2.1
    rw [num, hnl] at this
    omega

/-- The operator and fields of `exApplied` on the subdomain of two pixels that starts at pixel one. -/
example := C32_nonzero_location stableSort_spec (op := segment2) (p := ⟨[2], [1], [1], [0], true⟩)
  ⟨rfl, rfl, by decide, ⟨by decide, rfl, trivial⟩⟩ rfl rfl (by decide) (by decide) (by decide) ⟨1, by decide, by decide⟩
  (nodal := nodal3) (quad := quad3) exFits 1

/-- Non-trivial case: a 2 × 2 subdomain at location (2, 0) of a 4 × 2 domain. -/
example : (⟨[2, 2], [2, 0], [1, 2], [0, 1], true⟩ : DynamicPixels).Good ∧
    DynamicPixels.mkOrdered stableSort true [2, 2] [2, 0] = .ok ⟨[2, 2], [2, 0], [1, 2], [0, 1], true⟩ :=
  ⟨⟨rfl, rfl, by decide, ⟨by decide, rfl, by decide, rfl, trivial⟩⟩, by decide⟩

/-- **C31** Shifting the nodal values on the periodic grid shifts the gradient in the same way. -/
theorem C31_translation {srt : SortFn} (hsrt : SortSpec srt) {op : GradOp α} {p : DynamicPixels}
    (hper : Periodic p op.dim) {u u' quad g g' : GField α} (hfit : op.Fits u quad) (hu : OnGrid p u)
    (hu' : SameShape u u') (hq : OnGrid p quad) {U : List Int → Nat → Nat → α} (t : List Int)
    (ht : t.length = op.dim) (hU : Holds p u U) (hU' : Holds p u' (fun x => U (wrap p.nb x t)))
    (hg : op.applyGradient srt p u quad = (.ok (), g)) (hg' : op.applyGradient srt p u' quad = (.ok (), g'))
    (x : List Int) (hx : InBoxAt p.nb p.loc x) (k k' : Nat) (hk : p.getIndex x = .ok (k : Int))
    (hk' : p.getIndex (wrap p.nb x t) = .ok (k' : Int)) (r c : Nat) : g'.val k r c = g.val k' r c := by
  have inv : ∀ {w f : GField α}, op.applyGradient srt p w quad = (.ok (), f) →
      op.gradientIncrement srt p w 1 quad.setZero = .ok f := by
    intro w f hw
    unfold applyGradient at hw
    split at hw
    · rename_i q hq; cases hw; exact hq
    · cases hw
    · cases hw
  obtain ⟨f, hf, -, hv⟩ := gradient_matrix hsrt hper (quad := quad.setZero) hfit hu hq hU 1
  obtain ⟨f', hf', -, hv'⟩ := gradient_matrix hsrt hper (quad := quad.setZero) (nodal := u')
    (by unfold Fits at hfit ⊢; rw [← hu'.1, ← hu'.2.1, ← hu'.2.2.1]; exact hfit)
    (by unfold OnGrid at hu ⊢; rw [← hu'.2.2.2]; exact hu) hq hU' 1
  rw [inv hg] at hf
  rw [inv hg'] at hf'
  cases hf
  cases hf'
  have hw := hper.wrap_inBox hx ht
  rw [hv' x k hx hk, hv _ k' hw hk']
  simp only [GField.setZero]
  congr 2
  refine Finset.sum_congr rfl fun o _ => Finset.sum_congr rfl fun j _ => ?_
  rw [wrap_comm]

/-- The pixels of the line. -/
theorem line3_pixels {x : List Int} (h : InBoxAt line3.nb line3.loc x) : x = [0] ∨ x = [1] ∨ x = [2] := by
  match x, h with
  | [a], ⟨h1, h2, _⟩ =>
    have h2 : a < 0 + 3 := h2
    have h1 : (0 : Int) ≤ a := h1
    have : a = 0 ∨ a = 1 ∨ a = 2 := by omega
    rcases this with rfl | rfl | rfl <;> simp

/-- The values 5, 7, 4 as a function of the pixel, and the same field shifted by one pixel. -/
def exValues (x : List Int) (_ _ : Nat) : Int := if x = [0] then 5 else if x = [1] then 7 else 4

def nodalShifted : GField Int := ⟨true, 1, 1, 3, fun k _ _ => if k = 0 then 7 else if k = 1 then 4 else 5⟩

theorem exNodalHolds : Holds line3 nodal3 exValues ∧ Holds line3 nodalShifted (fun x => exValues (wrap line3.nb x [1])) := by
  constructor <;>
  · intro x k hx hk r j
    rcases line3_pixels hx with rfl | rfl | rfl
    · obtain rfl : k = 0 := by
        have : line3.getIndex [0] = .ok 0 := by decide
        rw [this] at hk; injection hk with hk; omega
      rfl
    · obtain rfl : k = 1 := by
        have : line3.getIndex [1] = .ok 1 := by decide
        rw [this] at hk; injection hk with hk; omega
      rfl
    · obtain rfl : k = 2 := by
        have : line3.getIndex [2] = .ok 2 := by decide
        rw [this] at hk; injection hk with hk; omega
      rfl

/-- The gradient of the shifted field in pixel 0 is that of the field in pixel 1. -/
example : ∃ g g', segment2.applyGradient stableSort line3 nodal3 quad3 = (.ok (), g) ∧
    segment2.applyGradient stableSort line3 nodalShifted quad3 = (.ok (), g') ∧ g'.val 0 0 0 = g.val 1 0 0 := by
  obtain ⟨g, hg⟩ := exApplied.1
  obtain ⟨g', hg', -⟩ := C29_gradient_outcome (u := nodal3) (v := nodalShifted) ⟨rfl, rfl, rfl, rfl⟩ hg
  exact ⟨g, g', hg, hg', C31_translation stableSort_spec (op := segment2) line3_periodic (u' := nodalShifted) exFits rfl
    ⟨rfl, rfl, rfl, rfl⟩ rfl [1] rfl exNodalHolds.1 exNodalHolds.2 hg hg' [0] ⟨by decide, by decide, trivial⟩ 0 1 (by decide) (by decide) 0 0⟩

/-- Value of the transposed operator (default weights) in terms of the matrix of the operator: pixel `y`
collects from the pixels that have it as a corner. -/
theorem transpose_matrix {srt : SortFn} (hsrt : SortSpec srt) {op : GradOp α} {p : DynamicPixels}
    (hper : Periodic p op.dim) (h0 : op.nbPixelQuad ≠ 0) {nodal quad : GField α} (hfit : op.Fits nodal quad)
    (hn : OnGrid p nodal) (hq : OnGrid p quad) {S : List Int → Nat → Nat → α} (hS : Holds p quad S) (a : α) :
    ∃ g, op.transposeIncrement srt p quad a nodal [] = .ok g ∧ SameShape nodal g ∧
      ∀ y (k : Nat), InBoxAt p.nb p.loc y → p.getIndex y = .ok (k : Int) → ∀ r j,
        g.val k r j = nodal.val k r j + a * ∑ o ∈ Finset.range (2 ^ op.dim), ∑ c ∈ Finset.range op.nbGrad,
          S (wrap p.nb y ((corner op.dim o).map (fun b => -b))) r c * op.B c (o * op.nbPixNodes + j) := by
  obtain ⟨L, h1, h2, h3, h4⟩ := hper.visits hsrt
  have hbox : ∀ i, i < L.length → InBoxAt p.nb p.loc ((L[i]?).getD []) := by
    intro i hi
    rw [List.getElem?_eq_getElem hi]
    exact (h2 _).1 (List.getElem_mem hi)
  have hlt : ∀ i : Nat, ((i : Int).tmod op.nbPixelQuad).toNat < op.nbPixelQuad := by
    intro i
    rw [Int.tmod_eq_emod_of_nonneg (by omega)]
    have := Int.emod_lt_of_pos (i : Int) (show (0 : Int) < op.nbPixelQuad by omega)
    omega
  have hw1 : ∀ i : Nat, op.pixelWeight (op.theWeights []) (i : Int) = 1 := by
    intro i
    unfold pixelWeight
    simp [theWeights, hlt i]
  refine ⟨_, transposeIncrement_ok.2 ⟨hfit, _, h4, ⟨?_, ?_⟩, rfl⟩, ⟨rfl, rfl, rfl, rfl⟩, ?_⟩
  · intro t ht
    obtain ⟨i, hi, ht⟩ := List.mem_flatMap.1 ht
    obtain ⟨o, ho, rfl⟩ := List.mem_map.1 ht
    have hi' := List.mem_range.1 hi
    have hb := hper.num_bounds (hper.wrap_inBox (hbox i hi') (corner_length op.dim o))
    unfold OnGrid at hn hq
    refine ⟨⟨by simp, ?_⟩, hb.1, ?_⟩
    · simp only; omega
    · simp only; omega
  · intro t ht
    obtain ⟨i, hi, ht⟩ := List.mem_flatMap.1 ht
    obtain ⟨o, ho, rfl⟩ := List.mem_map.1 ht
    exact ⟨h0, by simpa [theWeights] using hlt i⟩
  · intro y k hy hk r j
    simp only
    congr 2
    rw [sum_flat, Finset.sum_comm]
    refine Finset.sum_congr rfl fun o _ => ?_
    have hneg : ((corner op.dim o).map (fun b => -b)).length = op.dim := by simp [corner_length]
    have hz := hper.wrap_inBox hy hneg
    obtain ⟨i, hi, hiz⟩ := List.getElem_of_mem ((h2 _).2 hz)
    have hback : wrap p.nb L[i] (corner op.dim o) = y := by
      rw [hiz]
      exact wrap_neg_add hper.origin hy (by rw [corner_length, hper.dim_eq])
    rw [Finset.sum_eq_single i]
    · simp only [transTerm, List.getElem?_eq_getElem hi, Option.getD_some, hback]
      rw [if_pos]
      · refine Finset.sum_congr rfl fun c _ => ?_
        rw [hw1, mul_one, Int.toNat_natCast, hS _ i hz (by rw [← hiz]; exact h3 i hi)]
      · have := getIndex_num hper hy
        rw [hk] at this
        have := Res.ok.inj this
        have := (hper.num_bounds hy).1
        omega
    · intro i' hi' hne
      have hi'' : i' < L.length := Finset.mem_range.1 hi'
      simp only [transTerm, List.getElem?_eq_getElem hi'', Option.getD_some]
      rw [if_neg]
      intro he
      apply hne
      have hx : InBoxAt p.nb p.loc L[i'] := (h2 _).1 (List.getElem_mem hi'')
      have hwb := hper.wrap_inBox hx (corner_length op.dim o)
      have e1 := DynamicPixels.getIndex_of_inBox hper.good.strides_len hwb
      obtain ⟨m, m1, -, -, m4⟩ := hper.good.coord hwb
      obtain ⟨m', m1', -, -, m4'⟩ := hper.good.coord hy
      have e2 : m = num p (wrap p.nb L[i'] (corner op.dim o)) := by
        rw [e1] at m1; exact (Res.ok.inj m1).symm
      have e3 : m' = k := by rw [hk] at m1'; exact (Res.ok.inj m1').symm
      rw [e2, ← he, ← e3, m4'] at m4
      have hyw : y = wrap p.nb L[i'] (corner op.dim o) := Res.ok.inj m4
      have hL : L[i'] = L[i] := by
        rw [hiz, hyw]
        exact (wrap_add_neg hper.origin hx (by rw [corner_length, hper.dim_eq])).symm
      have a1 := h3 i' hi''
      rw [hL, h3 i hi] at a1
      have := Res.ok.inj a1
      omega
    · intro h; exact absurd (Finset.mem_range.2 hi) h

/-- **C31** Shifting the values at the quadrature points shifts the transposed application in the same
way. -/
theorem C31_transpose_translation {srt : SortFn} (hsrt : SortSpec srt) {op : GradOp α} {p : DynamicPixels}
    (hper : Periodic p op.dim) (h0 : op.nbPixelQuad ≠ 0) {s s' nodal g g' : GField α} (hfit : op.Fits nodal s)
    (hn : OnGrid p nodal) (hs : OnGrid p s) (hs' : SameShape s s') {S : List Int → Nat → Nat → α}
    (t : List Int) (ht : t.length = op.dim) (hS : Holds p s S) (hS' : Holds p s' (fun x => S (wrap p.nb x t)))
    (hg : op.applyTranspose srt p s nodal [] = (.ok (), g))
    (hg' : op.applyTranspose srt p s' nodal [] = (.ok (), g'))
    (x : List Int) (hx : InBoxAt p.nb p.loc x) (k k' : Nat) (hk : p.getIndex x = .ok (k : Int))
    (hk' : p.getIndex (wrap p.nb x t) = .ok (k' : Int)) (r j : Nat) : g'.val k r j = g.val k' r j := by
  have inv : ∀ {z f : GField α}, op.applyTranspose srt p z nodal [] = (.ok (), f) →
      op.transposeIncrement srt p z 1 nodal.setZero [] = .ok f := by
    intro z f hw
    unfold applyTranspose at hw
    split at hw
    · rename_i q hq; cases hw; exact hq
    · cases hw
    · cases hw
  obtain ⟨f, hf, -, hv⟩ := transpose_matrix hsrt hper h0 (nodal := nodal.setZero) hfit hn hs hS 1
  obtain ⟨f', hf', -, hv'⟩ := transpose_matrix hsrt hper h0 (nodal := nodal.setZero) (quad := s')
    (by unfold Fits at hfit ⊢; rw [← hs'.1, ← hs'.2.1, ← hs'.2.2.1]; exact hfit) hn
    (by unfold OnGrid at hs ⊢; rw [← hs'.2.2.2]; exact hs) hS' 1
  rw [inv hg] at hf
  rw [inv hg'] at hf'
  cases hf
  cases hf'
  have hw := hper.wrap_inBox hx ht
  rw [hv' x k hx hk, hv _ k' hw hk']
  simp only [GField.setZero]
  congr 2
  refine Finset.sum_congr rfl fun o _ => Finset.sum_congr rfl fun c _ => ?_
  rw [wrap_comm]

/-- Values at the quadrature points and the same shifted by one pixel. -/
def quadValues (x : List Int) (_ c : Nat) : Int := exValues x 0 0 + c

def quadField : GField Int := ⟨true, 1, 2, 3, fun k _ c => nodal3.val k 0 0 + c⟩

def quadShifted : GField Int := ⟨true, 1, 2, 3, fun k _ c => nodalShifted.val k 0 0 + c⟩

example : ∃ g g', segment2.applyTranspose stableSort line3 quadField nodal3 [] = (.ok (), g) ∧
    segment2.applyTranspose stableSort line3 quadShifted nodal3 [] = (.ok (), g') ∧ g'.val 0 0 0 = g.val 1 0 0 := by
  obtain ⟨_, h0⟩ := exApplied.2.2.1
  obtain ⟨g, hg, -⟩ := C29_transpose_outcome (s := quad3) (t := quadField) ⟨rfl, rfl, rfl, rfl⟩ h0
  obtain ⟨g', hg', -⟩ := C29_transpose_outcome (s := quad3) (t := quadShifted) ⟨rfl, rfl, rfl, rfl⟩ h0
  exact ⟨g, g', hg, hg', C31_transpose_translation stableSort_spec (op := segment2) line3_periodic (by decide) (s := quadField)
    (s' := quadShifted) exFits rfl rfl ⟨rfl, rfl, rfl, rfl⟩ (S := quadValues) [1] rfl
    (fun x k hx hk r j => congrArg (· + (j : Int)) (exNodalHolds.1 x k hx hk 0 0))
    (fun x k hx hk r j => congrArg (· + (j : Int)) (exNodalHolds.2 x k hx hk 0 0))
    hg hg' [0] ⟨by decide, by decide, trivial⟩ 0 1 (by decide) (by decide) 0 0⟩

/-- Each node of each element is a node of a corner of the pixel. -/
def ValidNodes (nodalPts : List (List Int × Mat Int)) (dim nbElem nbElemNodes nbPixNodes : Nat) : Prop :=
  ∀ e < nbElem, ∀ i < nbElemNodes,
    (0 ≤ nodeOf nodalPts e i ∧ nodeOf nodalPts e i < nbPixNodes) ∧
      ∀ a ∈ cornerOf nodalPts dim e i, a = 0 ∨ a = 1

/-- **C55** The gradient at quadrature point `q` of element `e` of pixel `x` in direction `d` is
`∑ᵢ ∂N_{q,e}(d, i) · u(x + corner of node i of e, node i of e)` on the periodic grid: the node
permutation built by the constructor picks, for each element node, the value at the corner and node
it was assigned. -/
theorem C55_gradient {srt : SortFn} (hsrt : SortSpec srt) {dim nbQuad nbElem nbElemNodes nbPixNodes : Nat}
    {shape : List (List (Mat α))} {nodalPts : List (List Int × Mat Int)} {op : GradOp α}
    (hop : make dim nbQuad nbElem nbElemNodes nbPixNodes shape nodalPts = .ok op)
    (hv : ValidNodes nodalPts dim nbElem nbElemNodes nbPixNodes)
    {p : DynamicPixels} (hper : Periodic p dim) {nodal quad : GField α} (hfit : op.Fits nodal quad)
    (hn : OnGrid p nodal) (hq : OnGrid p quad) {U : List Int → Nat → Nat → α} (hU : Holds p nodal U) :
    ∃ g, op.applyGradient srt p nodal quad = (.ok (), g) ∧ SameShape quad g ∧
      ∀ x (k : Nat), InBoxAt p.nb p.loc x → p.getIndex x = .ok (k : Int) →
      ∀ e < nbElem, ∀ q < nbQuad, ∀ d < dim, ∀ r,
        g.val k r (dim * (e * nbQuad + q) + d) =
          ∑ i ∈ Finset.range nbElemNodes, shapeGrad shape q e d i *
            U (wrap p.nb x (cornerOf nodalPts dim e i)) r (nodeOf nodalPts e i).toNat := by
  obtain ⟨h1, h2, h3, h4, h5, h6, h7⟩ := make_ok hop
  rw [← h1] at hper
  obtain ⟨g, hg, hs, hval⟩ := gradient_matrix hsrt hper (quad := quad.setZero) hfit hn hq hU 1
  refine ⟨g, by simp only [applyGradient, hg], hs, ?_⟩
  intro x k hx hk e he q hq' d hd r
  rw [hval x k hx hk]
  simp only [GField.setZero, zero_add, one_mul, h1, h5, h7 e he q hq' d hd, Finset.mul_sum]
  have : ∀ o ∈ Finset.range (2 ^ dim), (∑ j ∈ Finset.range nbPixNodes, ∑ i ∈ Finset.range nbElemNodes,
        U (wrap p.nb x (corner dim o)) r j * (shapeGrad shape q e d i *
          if linearIndex (nodeOf nodalPts e i) nbPixNodes (cornerOf nodalPts dim e i) =
            ((o * nbPixNodes + j : Nat) : Int) then 1 else 0)) =
      ∑ i ∈ Finset.range nbElemNodes, ∑ j ∈ Finset.range nbPixNodes,
        (shapeGrad shape q e d i * U (wrap p.nb x (corner dim o)) r j) *
          if linearIndex (nodeOf nodalPts e i) nbPixNodes (cornerOf nodalPts dim e i) =
            ((o * nbPixNodes + j : Nat) : Int) then 1 else 0 := by
    intro o _
    rw [Finset.sum_comm]
    exact Finset.sum_congr rfl fun i _ => Finset.sum_congr rfl fun j _ => by ring
  rw [Finset.sum_congr rfl this, Finset.sum_comm]
  refine Finset.sum_congr rfl fun i hi => ?_
  have hi' := Finset.mem_range.1 hi
  obtain ⟨l0, l1⟩ := h6 e he i hi'
  rw [sum_pick (2 ^ dim) nbPixNodes _ l0 l1
    (fun o j => shapeGrad shape q e d i * U (wrap p.nb x (corner dim o)) r j)]
  obtain ⟨⟨n0, n1⟩, hc⟩ := hv e he i hi'
  obtain ⟨m, m1, m2, m3⟩ := linearIndex_eq (nodeOf nodalPts e i) nbPixNodes _ hc
  have hclen : (cornerOf nodalPts dim e i).length = dim := by simp [cornerOf]
  rw [hclen] at m1 m2
  have htn : (linearIndex (nodeOf nodalPts e i) nbPixNodes (cornerOf nodalPts dim e i)).toNat =
      nbPixNodes * m + (nodeOf nodalPts e i).toNat := by
    rw [m3]
    obtain ⟨n, hn'⟩ := Int.eq_ofNat_of_zero_le n0
    rw [hn']
    have : (n : Int) + nbPixNodes * m = ((nbPixNodes * m + n : Nat) : Int) := by push_cast; ring
    rw [this, Int.toNat_natCast, Int.toNat_natCast]
  have hlt : (nodeOf nodalPts e i).toNat < nbPixNodes := by omega
  rw [htn, Nat.mul_add_div (by omega), Nat.div_eq_of_lt hlt, Nat.mul_add_mod, Nat.mod_eq_of_lt hlt, Nat.add_zero, m2]

/-- **C31** If the shape function gradients of every quadrature point sum to zero over the element's
nodes, the gradient of a field with the same value everywhere is zero. -/
theorem C31_constant {srt : SortFn} (hsrt : SortSpec srt) {dim nbQuad nbElem nbElemNodes nbPixNodes : Nat}
    {shape : List (List (Mat α))} {nodalPts : List (List Int × Mat Int)} {op : GradOp α}
    (hop : make dim nbQuad nbElem nbElemNodes nbPixNodes shape nodalPts = .ok op)
    (hv : ValidNodes nodalPts dim nbElem nbElemNodes nbPixNodes)
    (hz : ∀ e < nbElem, ∀ q < nbQuad, ∀ d < dim, ∑ i ∈ Finset.range nbElemNodes, shapeGrad shape q e d i = 0)
    {p : DynamicPixels} (hper : Periodic p dim) {nodal quad g : GField α} (hfit : op.Fits nodal quad)
    (hn : OnGrid p nodal) (hq : OnGrid p quad) (c : Nat → α) (hc : ∀ k r j, nodal.val k r j = c r)
    (hg : op.applyGradient srt p nodal quad = (.ok (), g)) (k r col : Nat) (hk : k < p.nb.prod.toNat)
    (hcol : col < op.nbGrad) : g.val k r col = 0 := by
  obtain ⟨g', hg', -, hval⟩ := C55_gradient hsrt hop hv hper hfit hn hq (U := fun _ r _ => c r)
    (fun x k _ _ r j => hc k r j)
  rw [hg] at hg'
  have e : g = g' := congrArg Prod.snd hg'
  obtain ⟨h1, h2, h3, -⟩ := make_ok hop
  obtain ⟨x, -, hx, hxk⟩ := hper.good.index (i := (k : Int)) (by omega) (by omega)
  simp only [nbGrad, h1, h2, h3] at hcol
  have hd : 0 < dim := hper.dim_pos
  have hq0 : 0 < nbQuad := Nat.pos_of_ne_zero (by rintro rfl; simp at hcol)
  have hm : col / dim < nbQuad * nbElem :=
    Nat.div_lt_of_lt_mul (by rw [← Nat.mul_assoc]; exact hcol)
  have key := hval x k hx hxk (col / dim / nbQuad) (Nat.div_lt_of_lt_mul hm) (col / dim % nbQuad)
    (Nat.mod_lt _ hq0) (col % dim) (Nat.mod_lt _ hd) r
  have hidx : dim * (col / dim / nbQuad * nbQuad + col / dim % nbQuad) + col % dim = col := by
    rw [Nat.mul_comm (col / dim / nbQuad), Nat.div_add_mod, Nat.div_add_mod]
  rw [hidx] at key
  rw [e, key, ← Finset.sum_mul, hz _ (Nat.div_lt_of_lt_mul hm) _ (Nat.mod_lt _ hq0) _ (Nat.mod_lt _ hd),
    zero_mul]

/-! ### A concrete operator in two dimensions: two triangles per pixel -/

/-- Shape function gradients of the lower and upper triangle of a unit square. -/
def triangleGrads : List (List (Mat Int)) :=
  [[⟨2, 3, fun d i => if i = 0 then -1 else if i = d + 1 then 1 else 0⟩,
    ⟨2, 3, fun d i => if i = 0 then 1 else if i = d + 1 then -1 else 0⟩]]

/-- Corners of the nodes of both triangles: (0,0), (1,0), (0,1) and (1,1), (0,1), (1,0). -/
def triangleNodes : List (List Int × Mat Int) :=
  [([0, 0, 0], ⟨3, 2, fun i d => if i = d + 1 then 1 else 0⟩),
   ([0, 0, 0], ⟨3, 2, fun i d => if i = d + 1 then 0 else 1⟩)]

/-- A periodic grid of 2 × 3 pixels. -/
def grid23 : DynamicPixels := ⟨[2, 3], [0, 0], [1, 2], [0, 1], true⟩

theorem grid23_periodic : Periodic grid23 2 where
  good := ⟨rfl, rfl, by decide, ⟨by decide, rfl, by decide, rfl, trivial⟩⟩
  contiguous := rfl
  origin := rfl
  dim_eq := rfl
  dim_pos := by decide
  dim_le := by decide

/-- The triangles, nodal values in the order of the pixels, and a field of values at the quadrature points. -/
theorem exTriangles : ∃ op, make 2 1 2 3 1 triangleGrads triangleNodes = .ok op ∧ ValidNodes triangleNodes 2 2 3 1 ∧
    op.Fits ⟨true, 1, 1, 6, fun k _ _ => (k : Int) * k⟩ ⟨true, 2, 2, 6, fun _ _ _ => 99⟩ ∧
    op.Fits ⟨true, 1, 1, 6, fun _ _ _ => 4⟩ ⟨true, 2, 2, 6, fun _ _ _ => 99⟩ ∧ op.nbGrad = 4 := by
  refine ⟨_, rfl, ?_, ⟨rfl, rfl, rfl, by decide, rfl, rfl⟩, ⟨rfl, rfl, rfl, by decide, rfl, rfl⟩, rfl⟩
  unfold ValidNodes
  decide +kernel

/-- Every field holds some function of the pixels. -/
theorem exSomeValues (p : DynamicPixels) (f : GField Int) :
    Holds p f (fun x r j => match p.getIndex x with | .ok k => f.val k.toNat r j | _ => 0) := by
  intro x k _ hk r j
  simp [hk]

example : ∃ op g, make 2 1 2 3 1 triangleGrads triangleNodes = .ok op ∧
    op.applyGradient stableSort grid23 ⟨true, 1, 1, 6, fun k _ _ => (k : Int) * k⟩ ⟨true, 2, 2, 6, fun _ _ _ => 99⟩ =
      (.ok (), g) ∧ g.val 3 0 2 = -9 := by
  obtain ⟨op, hop, hv, hfit, -, -⟩ := exTriangles
  obtain ⟨g, hg, -, hval⟩ := C55_gradient stableSort_spec hop hv grid23_periodic hfit rfl rfl (exSomeValues _ _)
  exact ⟨op, g, hop, hg, (hval [1, 1] 3 ⟨by decide, by decide, by decide, by decide, trivial⟩ (by decide) 1 (by decide)
    0 (by decide) 0 (by decide) 0).trans (by decide +kernel)⟩

/-- The gradient of the constant 4. -/
example : ∃ op g, make 2 1 2 3 1 triangleGrads triangleNodes = .ok op ∧
    op.applyGradient stableSort grid23 ⟨true, 1, 1, 6, fun _ _ _ => 4⟩ ⟨true, 2, 2, 6, fun _ _ _ => 99⟩ = (.ok (), g) ∧
    g.val 5 0 3 = 0 := by
  obtain ⟨op, hop, hv, -, hfit, h4⟩ := exTriangles
  obtain ⟨g, hg, -⟩ := C55_gradient stableSort_spec hop hv grid23_periodic hfit rfl rfl (exSomeValues _ _)
  exact ⟨op, g, hop, hg, C31_constant stableSort_spec hop hv (by decide +kernel) grid23_periodic hfit rfl rfl (fun _ => 4)
    (fun _ _ _ => rfl) hg 5 0 3 (by decide) (by rw [h4]; decide)⟩

/-- The hypotheses of `C55_gradient` and `C31_constant` hold for the triangles. -/
example : ValidNodes triangleNodes 2 2 3 1 ∧ (∃ op, make 2 1 2 3 1 triangleGrads triangleNodes = .ok op) ∧
    ∀ e < 2, ∀ q < 1, ∀ d < 2, ∑ i ∈ Finset.range 3, shapeGrad triangleGrads q e d i = 0 := by
  refine ⟨?_, ⟨_, rfl⟩, by decide +kernel⟩
  unfold ValidNodes
  decide +kernel

/-- The gradient of nodal values 0, 1, 4, 9, 16, 25 on the 2 × 3 grid: columns are x and y derivatives on
the lower and on the upper triangle. -/
example : ((make 2 1 2 3 1 triangleGrads triangleNodes).bind fun op =>
      let r := op.applyGradient stableSort grid23 ⟨true, 1, 1, 6, fun k _ _ => (k : Int) * k⟩
        ⟨true, 2, 2, 6, fun _ _ _ => 99⟩
      r.1.bind fun _ => .ok ((List.range 6).map fun k => (List.range 4).map fun c => r.2.val k 0 c)) =
    .ok [[1, 4, 5, 8], [-1, 8, -5, 4], [5, 12, 9, 16], [-5, 16, -9, 12], [9, -16, 1, -24], [-9, -24, -1, -16]] := by
  decide +kernel

/-! ## C58 -/

/-- **C58**: a rejected application leaves the output field as it was. -/
def C58_statement : Prop :=
  ∀ (srt : SortFn) (op : GradOp Int) (p : DynamicPixels) (nodal quad : GField Int) (e : Err) (g : GField Int),
    op.applyGradient srt p nodal quad = (.throw e, g) → ∀ k r c, g.val k r c = quad.val k r c

/-- **C58** is false: the output is set to zero before the arguments are checked. -/
theorem C58_false : ¬ C58_statement := by
  intro h
  have := h stableSort segment2 line3 { nodal3 with isGlobal := false } quad3 .runtimeError quad3.setZero rfl 0 0 0
  revert this
  decide

/-- **C58**, what holds: after a rejected application or transposed application every value of the
output is zero. -/
theorem C58_zero {srt : SortFn} {op : GradOp α} {p : DynamicPixels} {nodal quad g : GField α} {w : List α} {e : Err} :
    (op.applyGradient srt p nodal quad = (.throw e, g) → ∀ k r c, g.val k r c = 0) ∧
    (op.applyTranspose srt p quad nodal w = (.throw e, g) → ∀ k r c, g.val k r c = 0) := by
  constructor
  · intro h k r c
    unfold applyGradient at h
    split at h <;> cases h
    rfl
  · intro h k r c
    unfold applyTranspose at h
    split at h <;> cases h
    rfl

/-- **C58** A gradient application is rejected when a field is not global or the numbers of components do
not fit; with checks passed, on a grid that can be iterated over, it is not. -/
theorem C58_errors {srt : SortFn} {op : GradOp α} {p : DynamicPixels} {nodal quad : GField α} (a : α)
    (h : quad.isGlobal = false ∨ nodal.isGlobal = false ∨ quad.comps ≠ op.dim * nodal.comps) :
    op.gradientIncrement srt p nodal a quad = .throw .runtimeError ∧
      ∀ w, op.transposeIncrement srt p quad a nodal w = .throw .runtimeError := by
  unfold gradientIncrement transposeIncrement
  rcases h with h | h | h
  · simp [h]
  · cases quad.isGlobal <;> simp [h]
  · cases quad.isGlobal <;> cases nodal.isGlobal <;> simp [h]

example : ({ nodal3 with isGlobal := false } : GField Int).isGlobal = false := rfl

end Verif.Props
