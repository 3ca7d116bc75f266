import Verif.Lemmas.Tensor
import Mathlib.Tactic.FieldSimp
import Mathlib.Tactic.NormNum
import Mathlib.Algebra.CharZero.Defs
import Mathlib.Data.Rat.Cast.CharZero
import Mathlib.Tactic.LinearCombination
/-
C43 (tensor operations in matrix form), C44 (the asymmetriser), C45 (push forward and pull back).
-/
namespace Verif.Props
open Verif.Tensor

variable {d : Nat} {R : Type}

/-! ### C43 -/

/-- C43: every index quadruple has its own place in the matrix and every place is used: reading after writing gives
the written value and leaves the other entries. -/
theorem C43_storage [Zero R] (t : T4 d R) (i j k l i' j' k' l' : Fin d) (v : R) :
    get (Tensor.set t i j k l v) i' j' k' l'
      = if i' = i ∧ j' = j ∧ k' = k ∧ l' = l then v else get t i' j' k' l' := by
  unfold Tensor.get Tensor.set
  simp only [pos_inj, Matrix.of_apply]
  by_cases h : (i' = i ∧ j' = j) ∧ k' = k ∧ l' = l
  · rw [if_pos h, if_pos ⟨h.1.1, h.1.2, h.2.1, h.2.2⟩]
  · rw [if_neg h, if_neg (fun hh => h ⟨⟨hh.1, hh.2.1⟩, hh.2.2.1, hh.2.2.2⟩)]

/-- C43: the position in a row-major matrix is the one of the index pair read the other way round, so a row-major
and a column-major matrix store the same tensor in differently ordered rows and columns. -/
theorem C43_row_major (i j : Fin d) : getIndex d (d * d) 1 i j = getIndex d 1 (d * d) j i := by
  unfold getIndex
  simp only [if_true]
  omega

/-- C43 as stated for `get`: a fourth-order tensor stored as a `d² x d²` part of a larger column-major matrix
(column stride `n ≥ d²`) is accessed inside its rows. -/
def C43_get_statement : Prop :=
  ∀ (d n : Nat), d * d ≤ n → ∀ i j : Fin d, getIndex d 1 n i j < d * d

/-- In a 4 x 4 part of an 8 x 8 matrix, the indices `(0, 1)` are looked up in row 4, outside the part. -/
theorem C43_get_false : ¬ C43_get_statement := by
  intro h
  have := h 2 8 (by decide) 0 1
  revert this
  decide

/-- C43: the outer products `A_ij B_kl`, `A_ik B_jl` and `A_il B_jk`. -/
theorem C43_outer [Mul R] (junk : T4 d R) (A B : T2 d R) (i j k l : Fin d) :
    get (outer junk A B) i j k l = A i j * B k l ∧
    get (outerUnder junk A B) i j k l = A i k * B j l ∧
    get (outerOver junk A B) i j k l = A i l * B j k :=
  ⟨get_outer junk A B i j k l, get_outerUnder junk A B i j k l, get_outerOver junk A B i j k l⟩

/-- C43: the functions of namespace `Tensors` compute the same tensors. -/
theorem C43_tensors [Mul R] (junk : T4 d R) (A B : T2 d R) (i j k l : Fin d) :
    tOuter A B i j k l = get (outer junk A B) i j k l ∧
    tOuterUnder A B i j k l = some (get (outerUnder junk A B) i j k l) ∧
    tOuterOver A B i j k l = some (get (outerOver junk A B) i j k l) := by
  rw [get_outer, get_outerUnder, get_outerOver]
  exact ⟨rfl, rfl, rfl⟩

/-- C43: `tensmult` contracts the last two indices. -/
theorem C43_tensmult [CommSemiring R] (A : T4 d R) (B : T2 d R) (i j : Fin d) :
    tensmult A B i j = ∑ k, ∑ l, get A i j k l * B k l := by
  have h1 : ∀ (q : List (Fin d × Fin d × Fin d × Fin d)) (t : T2 d R) (r c : Fin d),
      (q.foldl (fun t q =>
        addEntry t q.1 q.2.1 (get A q.1 q.2.1 q.2.2.1 q.2.2.2 * B q.2.2.1 q.2.2.2)) t) r c
      = t r c + (q.map (fun s => if r = s.1 ∧ c = s.2.1 then
          get A s.1 s.2.1 s.2.2.1 s.2.2.2 * B s.2.2.1 s.2.2.2 else 0)).sum := by
    intro q
    induction q with
    | nil => intros; simp
    | cons s q ih =>
      intro t r c
      rw [List.foldl_cons, ih, List.map_cons, List.sum_cons, ← add_assoc]
      congr 1
      unfold addEntry
      rw [Matrix.of_apply]
      by_cases h : r = s.1 ∧ c = s.2.1
      · rw [if_pos h, if_pos h]
      · rw [if_neg h, if_neg h, add_zero]
  unfold tensmult
  rw [h1, Matrix.zero_apply, zero_add, sum_quads]
  rw [Finset.sum_eq_single i, Finset.sum_eq_single j]
  · simp
  · intro b _ hb
    simp [Ne.symm hb]
  · simp
  · intro b _ hb
    simp [Ne.symm hb]
  · simp

theorem tensmult_linear [Field R] (A A' : T4 d R) (x y : R) (B : T2 d R) :
    tensmult (x • A + y • A') B = x • tensmult A B + y • tensmult A' B := by
  ext i j
  simp only [C43_tensmult, Matrix.add_apply, Matrix.smul_apply, smul_eq_mul, Finset.mul_sum]
  rw [← Finset.sum_add_distrib]
  refine Finset.sum_congr rfl fun k _ => ?_
  rw [← Finset.sum_add_distrib]
  refine Finset.sum_congr rfl fun l _ => ?_
  have : get (x • A + y • A') i j k l = x * get A i j k l + y * get A' i j k l := rfl
  rw [this]; ring

/-- C43: the identity, transposition, symmetrisation and trace tensors act as these operations. -/
theorem C43_special [Field R] (j1 j2 j3 j4 j5 : T4 d R) (B : T2 d R) :
    tensmult (Iiden j1) B = B ∧ tensmult (Itrns j2) B = B.transpose ∧
    tensmult (Isymm j3 j4) B = (1 / 2 : R) • (B + B.transpose) ∧
    tensmult (Itrac j5) B = Matrix.trace B • (1 : T2 d R) := by
  have h1 : ∀ j1 : T4 d R, tensmult (Iiden j1) B = B := by
    intro j1
    ext i j
    rw [C43_tensmult, Iiden, Finset.sum_eq_single i, Finset.sum_eq_single j]
    · simp [get_outerUnder]
    · intro b _ hb; simp [get_outerUnder, Matrix.one_apply_ne hb.symm]
    · simp
    · intro b _ hb; simp [get_outerUnder, Matrix.one_apply_ne hb.symm]
    · simp
  have h2 : ∀ j2 : T4 d R, tensmult (Itrns j2) B = B.transpose := by
    intro j2
    ext i j
    rw [C43_tensmult, Itrns, Finset.sum_eq_single j, Finset.sum_eq_single i]
    · simp [get_outerOver]
    · intro b _ hb; simp [get_outerOver, Matrix.one_apply_ne hb.symm]
    · simp
    · intro b _ hb; simp [get_outerOver, Matrix.one_apply_ne hb.symm]
    · simp
  refine ⟨h1 j1, h2 j2, ?_, ?_⟩
  · have : Isymm j3 j4 = (1 / 2 : R) • Iiden j3 + (1 / 2 : R) • Itrns j4 := by
      rw [Isymm, smul_add]; rfl
    rw [this, tensmult_linear, h1, h2, smul_add]
  · ext i j
    rw [C43_tensmult, Itrac]
    simp only [get_outer, Matrix.smul_apply, smul_eq_mul, Matrix.trace, Matrix.diag]
    rw [Finset.sum_mul]
    refine Finset.sum_congr rfl fun k _ => ?_
    rw [Finset.sum_eq_single k]
    · simp [mul_comm]
    · intro b _ hb; simp [Matrix.one_apply_ne hb.symm]
    · simp

example : tensmult (Itrns (Matrix.of fun _ _ => 7)) !![1, 2; 3, 4] = !![1, 3; 2, (4 : ℚ)] := by
  rw [(C43_special 0 (Matrix.of fun _ _ => 7) 0 0 0 _).2.1]
  ext i j
  fin_cases i <;> fin_cases j <;> rfl

/-- C43: the double contraction of fourth-order tensors contracts the inner index pairs, acts as composition under
`tensmult`, and the double contraction of second-order tensors is `A_ij B_ij`. -/
theorem C43_ddot [CommSemiring R] (A B : T4 d R) (C D : T2 d R) :
    (∀ i j k l, get (ddot44 A B) i j k l = ∑ a, ∑ b, get A i j a b * get B a b k l) ∧
    tensmult (ddot44 A B) C = tensmult A (tensmult B C) ∧
    ddot22 C D = ∑ i, ∑ j, C i j * D i j := by
  refine ⟨fun i j k l => get_mul A B i j k l, ?_, ?_⟩
  · ext i j
    simp only [C43_tensmult]
    simp only [ddot44, get_mul, Finset.mul_sum, Finset.sum_mul]
    have swap : ∀ f : Fin d → Fin d → Fin d → Fin d → R,
        (∑ k, ∑ l, ∑ a, ∑ b, f k l a b) = ∑ a, ∑ b, ∑ k, ∑ l, f k l a b := by
      intro f
      calc (∑ k, ∑ l, ∑ a, ∑ b, f k l a b)
          = ∑ k, ∑ a, ∑ l, ∑ b, f k l a b := by
            refine Finset.sum_congr rfl fun k _ => Finset.sum_comm
        _ = ∑ a, ∑ k, ∑ l, ∑ b, f k l a b := Finset.sum_comm
        _ = ∑ a, ∑ k, ∑ b, ∑ l, f k l a b := by
            refine Finset.sum_congr rfl fun a _ => Finset.sum_congr rfl fun k _ => Finset.sum_comm
        _ = ∑ a, ∑ b, ∑ k, ∑ l, f k l a b := by
            refine Finset.sum_congr rfl fun a _ => Finset.sum_comm
    rw [swap]
    refine Finset.sum_congr rfl fun a _ => Finset.sum_congr rfl fun b _ =>
      Finset.sum_congr rfl fun k _ => Finset.sum_congr rfl fun l _ => ?_
    ring
  · simp [ddot22, Matrix.trace, Matrix.mul_apply]

/-- C43: the simple contractions `A_ia B_ajkl` and `A_ijka B_al`. -/
theorem C43_dot [CommSemiring R] (A : T2 d R) (B : T4 d R) (i j k l : Fin d) :
    get (dot24 A B) i j k l = ∑ a, A i a * get B a j k l ∧
    get (dot42 B A) i j k l = ∑ a, get B i j k a * A a l := by
  constructor
  · have h := addTo_foldl (quints d) (fun q => (q.1, q.2.2.1, q.2.2.2.1, q.2.2.2.2))
      (fun q => A q.1 q.2.1 * get B q.2.1 q.2.2.1 q.2.2.2.1 q.2.2.2.2) 0 i j k l
    unfold dot24
    rw [h, sum_quints]
    have h0 : get (0 : T4 d R) i j k l = 0 := rfl
    rw [h0, zero_add, Finset.sum_eq_single i]
    · refine Finset.sum_congr rfl fun a _ => ?_
      rw [Finset.sum_eq_single j, Finset.sum_eq_single k, Finset.sum_eq_single l]
      · simp
      · intro b _ hb; simp [Ne.symm hb]
      · simp
      · intro b _ hb; simp [Ne.symm hb]
      · simp
      · intro b _ hb; simp [Ne.symm hb]
      · simp
    · intro b _ hb; simp [Ne.symm hb]
    · simp
  · have h := addTo_foldl (quints d) (fun q => (q.1, q.2.1, q.2.2.1, q.2.2.2.2))
      (fun q => get B q.1 q.2.1 q.2.2.1 q.2.2.2.1 * A q.2.2.2.1 q.2.2.2.2) 0 i j k l
    unfold dot42
    rw [h, sum_quints]
    have h0 : get (0 : T4 d R) i j k l = 0 := rfl
    rw [h0, zero_add, Finset.sum_eq_single i, Finset.sum_eq_single j, Finset.sum_eq_single k]
    · refine Finset.sum_congr rfl fun a _ => ?_
      rw [Finset.sum_eq_single l]
      · simp
      · intro b _ hb; simp [Ne.symm hb]
      · simp
    · intro b _ hb; simp [Ne.symm hb]
    · simp
    · intro b _ hb; simp [Ne.symm hb]
    · simp
    · intro b _ hb; simp [Ne.symm hb]
    · simp

/-! ### C44 -/

/-- C44 as stated, over the rational numbers: `Iasymm` maps every tensor to its antisymmetric part. -/
def C44_statement : Prop :=
  ∀ (d : Nat) (junk : T4 d ℚ) (B : T2 d ℚ), tensmult (Iasymm junk junk junk) B = (1 / 2 : ℚ) • (B - B.transpose)

/-- What `Iasymm` does: the symmetric part minus a third of the trace times the identity.

Full statement (`C44_statement`): the antisymmetric part.  The code computes something else. -/
theorem C44_actual_partial [Field R] (j1 j2 j3 : T4 d R) (B : T2 d R) :
    tensmult (Iasymm j1 j2 j3) B = (1 / 2 : R) • (B + B.transpose) - (Matrix.trace B / 3) • (1 : T2 d R) := by
  have hlin : tensmult (Iasymm j1 j2 j3) B = tensmult (Isymm j1 j2) B - (1 / 3 : R) • tensmult (Itrac j3) B := by
    have : Iasymm j1 j2 j3 = (1 : R) • Isymm j1 j2 + (-(1 / 3) : R) • Itrac j3 := by
      rw [Iasymm, one_smul, neg_smul, sub_eq_add_neg]
    rw [this, tensmult_linear, one_smul, neg_smul, sub_eq_add_neg]
  obtain ⟨_, _, h3, h4⟩ := C43_special j1 j1 j1 j2 j3 B
  rw [hlin, h3, h4, smul_smul]
  congr 2
  ring

/-- The identity is symmetric, but in two dimensions `Iasymm` maps it to a third of itself. -/
theorem C44_false : ¬ C44_statement := by
  intro h
  have h1 := h 2 0 1
  rw [C44_actual_partial] at h1
  have h2 := congrFun (congrFun h1 0) 0
  simp [Matrix.trace] at h2
  norm_num at h2

/-- In every dimension, antisymmetric tensors are mapped to zero instead of to themselves. -/
theorem C44_antisymmetric [Field R] (j1 j2 j3 : T4 d R) (B : T2 d R) (h2 : (2 : R) ≠ 0) (h : B.transpose = -B) :
    tensmult (Iasymm j1 j2 j3) B = 0 := by
  rw [C44_actual_partial, h]
  have ht : Matrix.trace B = 0 := by
    have h3 := Matrix.trace_transpose B
    rw [h, Matrix.trace_neg] at h3
    have : (2 : R) * Matrix.trace B = 0 := by linear_combination -h3
    exact (mul_eq_zero.1 this).resolve_left h2
  simp [ht]

example : (!![0, 1; -1, 0] : T2 2 ℚ).transpose = -!![0, 1; -1, (0 : ℚ)] := by
  ext i j
  fin_cases i <;> fin_cases j <;> simp

/-! ### C45 -/

/-- C45: in index notation the push forward multiplies every index with `F`. -/
theorem C45_push_index [CommSemiring R] (j1 j2 : T4 d R) (t1 : Fin d → R) (t2 : T2 d R) (t4 : T4 d R) (F : T2 d R)
    (i j k l : Fin d) :
    pushForward1 t1 F i = ∑ a, F i a * t1 a ∧
    pushForward2 t2 F i j = ∑ a, ∑ b, F i a * F j b * t2 a b ∧
    get (pushForward4 j1 j2 t4 F) i j k l = ∑ a, ∑ b, ∑ c, ∑ e, F i a * F j b * F k c * F l e * get t4 a b c e := by
  refine ⟨rfl, ?_, ?_⟩
  · simp only [pushForward2, Matrix.mul_apply, Matrix.transpose_apply, Finset.sum_mul]
    rw [Finset.sum_comm]
    refine Finset.sum_congr rfl fun a _ => Finset.sum_congr rfl fun b _ => ?_
    ring
  · have swap : ∀ f : Fin d → Fin d → Fin d → Fin d → R,
        (∑ k, ∑ l, ∑ a, ∑ b, f k l a b) = ∑ a, ∑ b, ∑ k, ∑ l, f k l a b := by
      intro f
      calc (∑ k, ∑ l, ∑ a, ∑ b, f k l a b)
          = ∑ k, ∑ a, ∑ l, ∑ b, f k l a b := by
            refine Finset.sum_congr rfl fun k _ => Finset.sum_comm
        _ = ∑ a, ∑ k, ∑ l, ∑ b, f k l a b := Finset.sum_comm
        _ = ∑ a, ∑ k, ∑ b, ∑ l, f k l a b := by
            refine Finset.sum_congr rfl fun a _ => Finset.sum_congr rfl fun k _ => Finset.sum_comm
        _ = ∑ a, ∑ b, ∑ k, ∑ l, f k l a b := by
            refine Finset.sum_congr rfl fun a _ => Finset.sum_comm
    simp only [pushForward4, get_mul, get_outerUnder, Matrix.transpose_apply, Finset.sum_mul]
    rw [swap]
    refine Finset.sum_congr rfl fun a _ => Finset.sum_congr rfl fun b _ =>
      Finset.sum_congr rfl fun c _ => Finset.sum_congr rfl fun e _ => ?_
    ring

/-- C45: pushing forward with `F` and then with `G` is pushing forward with `G F`. -/
theorem C45_composition [CommSemiring R] (j1 j2 j3 j4 j5 j6 : T4 d R) (t1 : Fin d → R) (t2 : T2 d R) (t4 : T4 d R)
    (F G : T2 d R) :
    pushForward1 (pushForward1 t1 F) G = pushForward1 t1 (G * F) ∧
    pushForward2 (pushForward2 t2 F) G = pushForward2 t2 (G * F) ∧
    pushForward4 j1 j2 (pushForward4 j3 j4 t4 F) G = pushForward4 j5 j6 t4 (G * F) := by
  refine ⟨?_, ?_, ?_⟩
  · simp [pushForward1, Matrix.mulVec_mulVec]
  · simp only [pushForward2, Matrix.transpose_mul, Matrix.mul_assoc]
  · simp only [pushForward4, Matrix.transpose_mul]
    rw [← outerUnder_mul j1 j3 j5, ← outerUnder_mul j4 j2 j6]
    simp only [Matrix.mul_assoc]

/-- C45: pull back and push forward with an invertible `F` undo each other (`inv F` being the inverse, which is what
Eigen's `inverse()` computes up to rounding). -/
theorem C45_inverse [CommSemiring R] (j1 j2 j3 j4 : T4 d R) (t1 : Fin d → R) (t2 : T2 d R) (t4 : T4 d R) (F : T2 d R)
    (inv : T2 d R → T2 d R) (h : inv F * F = 1) (h' : F * inv F = 1) :
    (pullBack1 inv (pushForward1 t1 F) F = t1 ∧ pushForward1 (pullBack1 inv t1 F) F = t1) ∧
    (pullBack2 inv (pushForward2 t2 F) F = t2 ∧ pushForward2 (pullBack2 inv t2 F) F = t2) ∧
    (pullBack4 j1 j2 inv (pushForward4 j3 j4 t4 F) F = t4 ∧ pushForward4 j1 j2 (pullBack4 j3 j4 inv t4 F) F = t4) := by
  have one1 : pushForward1 t1 1 = t1 := by simp [pushForward1]
  have one2 : pushForward2 t2 1 = t2 := by simp [pushForward2]
  have one4 : pushForward4 j1 j2 t4 1 = t4 := by simp [pushForward4, outerUnder_one]
  obtain ⟨a1, a2, a4⟩ := C45_composition j1 j2 j3 j4 j1 j2 t1 t2 t4 F (inv F)
  obtain ⟨b1, b2, b4⟩ := C45_composition j1 j2 j3 j4 j1 j2 t1 t2 t4 (inv F) F
  rw [h] at a1 a2 a4
  rw [h'] at b1 b2 b4
  exact ⟨⟨a1.trans one1, b1.trans one1⟩, ⟨a2.trans one2, b2.trans one2⟩, ⟨a4.trans one4, b4.trans one4⟩⟩

example : (!![1, -2; 0, 1] : T2 2 ℚ) * !![1, 2; 0, 1] = 1 ∧ (!![1, 2; 0, 1] : T2 2 ℚ) * !![1, -2; 0, 1] = 1 := by
  constructor <;> (ext i j; fin_cases i <;> fin_cases j <;> simp [Matrix.mul_apply, Fin.sum_univ_succ])

end Verif.Props
