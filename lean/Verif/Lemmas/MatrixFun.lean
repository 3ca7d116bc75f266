import Verif.Model.MatrixFun
import Mathlib.Analysis.Normed.Algebra.MatrixExponential
import Mathlib.Analysis.SpecialFunctions.Exponential
import Mathlib.Analysis.Matrix.Spectrum
import Mathlib.LinearAlgebra.Matrix.PosDef
import Mathlib.Algebra.Order.Star.Real
/-
Lemmas for the exponential and the logarithm of matrices.
-/
namespace Verif.MatrixFun
open Matrix

variable {n : Nat}

/-- Functions of a matrix with these eigenvectors. -/
def spec (V : RMat n) (f : Fin n → ℝ) : RMat n := V * diagonal f * Vᵀ

theorem spec_add (V : RMat n) (f g : Fin n → ℝ) : spec V f + spec V g = spec V (fun k => f k + g k) := by
  rw [spec, spec, spec, ← Matrix.add_mul, ← Matrix.mul_add, diagonal_add]

theorem spec_smul (V : RMat n) (c : ℝ) (f : Fin n → ℝ) : c • spec V f = spec V (fun k => c * f k) := by
  have : diagonal (fun k => c * f k) = c • diagonal f := by
    rw [← diagonal_smul]; rfl
  rw [spec, spec, this, Matrix.mul_smul, Matrix.smul_mul]

theorem spec_mul {V : RMat n} (hV : Vᵀ * V = 1) (f g : Fin n → ℝ) : spec V f * spec V g = spec V (fun k => f k * g k) := by
  rw [spec, spec, spec, ← diagonal_mul_diagonal]
  calc V * diagonal f * Vᵀ * (V * diagonal g * Vᵀ) = V * diagonal f * (Vᵀ * V) * diagonal g * Vᵀ := by
        simp only [Matrix.mul_assoc]
    _ = _ := by rw [hV, Matrix.mul_one]; simp only [Matrix.mul_assoc]

theorem spec_one {V : RMat n} (hV : V * Vᵀ = 1) : spec V (fun _ => 1) = 1 := by
  rw [spec]
  have : diagonal (fun _ : Fin n => (1 : ℝ)) = 1 := rfl
  rw [this, Matrix.mul_one, hV]

theorem spec_zero (V : RMat n) : spec V (fun _ => 0) = 0 := by
  rw [spec]
  have : diagonal (fun _ : Fin n => (0 : ℝ)) = 0 := diagonal_zero
  rw [this, Matrix.mul_zero, Matrix.zero_mul]

theorem dyad_eq (d : Decomp n) (x : ℝ) (i : Fin n) : d.dyad x i = spec d.vecs (fun k => if k = i then x else 0) := by
  ext a b
  rw [Decomp.dyad, spec, vecMulVec_apply, Matrix.mul_assoc, Matrix.mul_apply]
  rw [Finset.sum_eq_single i]
  · simp [Matrix.diagonal_mul, Matrix.col]; ring
  · intro k _ hk; simp [Matrix.diagonal_mul, hk]
  · simp

theorem foldl_dyad (d : Decomp n) (f : Fin n → ℝ) : ∀ (l : List (Fin n)) (g : Fin n → ℝ), l.Nodup →
    l.foldl (fun acc i => acc + d.dyad (f i) i) (spec d.vecs g) = spec d.vecs (fun k => g k + if k ∈ l then f k else 0)
  | [], g, _ => by simp
  | i :: l, g, h => by
    rw [List.foldl_cons, dyad_eq, spec_add, foldl_dyad d f l _ (List.nodup_cons.1 h).2]
    congr 1
    funext k
    by_cases hk : k = i
    · subst hk; simp [(List.nodup_cons.1 h).1]
    · simp [hk]

theorem expmSpectral_eq (d : Decomp n) : expmSpectral d = spec d.vecs (fun k => Real.exp (d.vals k)) := by
  rw [expmSpectral, ← spec_zero d.vecs, foldl_dyad _ _ _ _ (List.nodup_finRange n)]
  simp

theorem foldlM_dyad (d : Decomp n) : ∀ (l : List (Fin n)) (A : RMat n), (∀ i ∈ l, 0 < d.vals i) →
    l.foldlM (fun acc i => do
      let x ← stdLog (d.vals i)
      pure (acc + d.dyad x i)) A = some (l.foldl (fun acc i => acc + d.dyad (Real.log (d.vals i)) i) A)
  | [], A, _ => rfl
  | i :: l, A, h => by
    rw [List.foldlM_cons, stdLog, if_pos (h i List.mem_cons_self)]
    exact foldlM_dyad d l _ fun j hj => h j (List.mem_cons_of_mem _ hj)

theorem foldlM_none (d : Decomp n) : ∀ (l : List (Fin n)) (A : RMat n), (∃ i ∈ l, ¬ 0 < d.vals i) →
    l.foldlM (fun acc i => do
      let x ← stdLog (d.vals i)
      pure (acc + d.dyad x i)) A = none
  | [], A, h => by obtain ⟨i, h, -⟩ := h; cases h
  | i :: l, A, h => by
    rw [List.foldlM_cons]
    by_cases hi : 0 < d.vals i
    · rw [stdLog, if_pos hi]
      refine foldlM_none d l _ ?_
      obtain ⟨j, hj, hj'⟩ := h
      rcases List.mem_cons.1 hj with rfl | hj
      · exact absurd hi hj'
      · exact ⟨j, hj, hj'⟩
    · rw [stdLog, if_neg hi]; rfl

theorem logmAltSpectral_eq (d : Decomp n) (h : ∀ i, 0 < d.vals i) :
    logmAltSpectral d = some (spec d.vecs (fun k => Real.log (d.vals k))) := by
  rw [logmAltSpectral, foldlM_dyad d _ _ fun i _ => h i, ← spec_zero d.vecs, foldl_dyad _ _ _ _ (List.nodup_finRange n)]
  simp

theorem logmAltSpectral_none (d : Decomp n) (h : ¬ ∀ i, 0 < d.vals i) : logmAltSpectral d = none := by
  rw [logmAltSpectral]
  refine foldlM_none d _ _ ?_
  obtain ⟨i, hi⟩ := not_forall.1 h
  exact ⟨i, List.mem_finRange i, hi⟩

/-! ### Lagrange's projections -/

theorem recip_some {x : ℝ} (h : x ≠ 0) : recip x = some (1 / x) := by rw [recip, if_neg h]

theorem factor_eq {eigs : Fin n → ℝ} {V : RMat n} (hV : V * Vᵀ = 1) {i j : Fin n} (h : eigs i ≠ eigs j) :
    factor eigs (spec V eigs) i j = some (spec V (fun k => 1 / (eigs i - eigs j) * (eigs k - eigs j))) := by
  rw [factor, recip_some (sub_ne_zero.2 h)]
  simp only [Option.bind_eq_bind, Option.bind_some, Option.pure_def]
  have hT : spec V eigs - eigs j • (1 : RMat n) = spec V eigs + (-eigs j) • spec V (fun _ => 1) := by
    rw [spec_one hV, neg_smul, sub_eq_add_neg]
  rw [hT, spec_smul, spec_add, spec_smul]
  congr 2
  funext k
  ring

theorem factor_none {eigs : Fin n → ℝ} {T : RMat n} {i j : Fin n} (h : eigs i = eigs j) : factor eigs T i j = none := by
  rw [factor, recip, if_pos (sub_eq_zero.2 h)]; rfl

theorem proj_eq {eigs : Fin n → ℝ} {V : RMat n} (hV : V * Vᵀ = 1) (hinj : Function.Injective eigs) (i : Fin n) :
    ∀ (j : Nat) (hj : j < n), (n = 1 ∨ i.val ≠ 0 ∨ 1 ≤ j) →
      ∃ g : Fin n → ℝ, proj eigs (spec V eigs) i j hj = some (spec V g) ∧ g i = 1 ∧ ∀ k, k.val ≤ j → k ≠ i → g k = 0
  | 0, hj, hc => by
    have hV' : Vᵀ * V = 1 := mul_eq_one_comm.1 hV
    rw [proj]
    split
    · rename_i h1
      exact ⟨fun _ => 1, by rw [spec_one hV], rfl, fun k _ hk => absurd (Fin.ext (by omega)) hk⟩
    · rename_i h1
      have hi : i.val ≠ 0 := by rcases hc with h | h | h <;> omega
      rw [if_neg hi]
      have hne : eigs i ≠ eigs ⟨0, hj⟩ := fun h => hi (congrArg Fin.val (hinj h))
      refine ⟨_, factor_eq hV hne, ?_, ?_⟩
      · rw [one_div, inv_mul_cancel₀ (sub_ne_zero.2 hne)]
      · intro k hk _
        have : k = ⟨0, hj⟩ := Fin.ext (Nat.le_zero.1 hk)
        rw [this, sub_self, mul_zero]
  | j + 1, hj, hc => by
    have hV' : Vᵀ * V = 1 := mul_eq_one_comm.1 hV
    rw [proj]
    split
    · rename_i h1
      obtain ⟨h1, rfl⟩ := h1
      have hne : eigs i ≠ eigs ⟨0 + 1, hj⟩ := fun h => by
        have := congrArg Fin.val (hinj h)
        simp only at this
        omega
      refine ⟨_, factor_eq hV hne, ?_, ?_⟩
      · rw [one_div, inv_mul_cancel₀ (sub_ne_zero.2 hne)]
      · intro k hk hki
        have hk0 : k.val ≠ i.val := fun h => hki (Fin.ext h)
        have : k = ⟨0 + 1, hj⟩ := Fin.ext (by simp only; omega)
        rw [this, sub_self, mul_zero]
    · rename_i h1
      split
      · rename_i h2
        obtain ⟨g, hg, hgi, hgk⟩ := proj_eq hV hinj i j (by omega) (.inr (.inl (by omega)))
        refine ⟨g, hg, hgi, fun k hk hki => hgk k ?_ hki⟩
        have hk0 : k.val ≠ i.val := fun h => hki (Fin.ext h)
        omega
      · rename_i h2
        obtain ⟨g, hg, hgi, hgk⟩ := proj_eq hV hinj i j (by omega) (by omega)
        have hne : eigs i ≠ eigs ⟨j + 1, hj⟩ := fun h => h2 (congrArg Fin.val (hinj h))
        rw [factor_eq hV hne, hg]
        refine ⟨_, congrArg some (spec_mul hV' _ _), ?_, ?_⟩
        · rw [hgi, mul_one, one_div, inv_mul_cancel₀ (sub_ne_zero.2 hne)]
        · intro k hk hki
          by_cases hkj : k.val ≤ j
          · rw [hgk k hkj hki, mul_zero]
          · have : k = ⟨j + 1, hj⟩ := Fin.ext (by simp only; omega)
            rw [this, sub_self, mul_zero, zero_mul]

theorem projAll_eq {eigs : Fin n → ℝ} {V : RMat n} (hV : V * Vᵀ = 1) (hinj : Function.Injective eigs) (i : Fin n) :
    projAll eigs (spec V eigs) i = some (spec V (fun k => if k = i then 1 else 0)) := by
  have hi := i.isLt
  obtain ⟨g, hg, hgi, hgk⟩ := proj_eq hV hinj i (n - 1) (by omega) (by omega)
  rw [projAll, hg]
  congr 2
  funext k
  split
  · rename_i h; rw [h, hgi]
  · rename_i h; exact hgk k (by have := k.isLt; omega) h

theorem summand_eq {eigs : Fin n → ℝ} {V : RMat n} (hV : V * Vᵀ = 1) (hinj : Function.Injective eigs)
    (hpos : ∀ i, 0 < eigs i) : ∀ (i : Nat) (hi : i < n),
      summand eigs (spec V eigs) i hi = some (spec V (fun k => if k.val ≤ i then Real.log (eigs k) else 0))
  | 0, hi => by
    rw [summand, stdLog, if_pos (hpos _), projAll_eq hV hinj]
    simp only [Option.bind_eq_bind, Option.bind_some, Option.pure_def]
    rw [spec_smul]
    congr 2
    funext k
    by_cases hk : k = ⟨0, hi⟩
    · simp [hk]
    · have : ¬ k.val ≤ 0 := fun h => hk (Fin.ext (Nat.le_zero.1 h))
      rw [if_neg hk, if_neg this, mul_zero]
  | i + 1, hi => by
    rw [summand, stdLog, if_pos (hpos _), projAll_eq hV hinj, summand_eq hV hinj hpos i (by omega)]
    simp only [Option.bind_eq_bind, Option.bind_some, Option.pure_def]
    rw [spec_smul, spec_add]
    congr 2
    funext k
    by_cases hk : k = ⟨i + 1, hi⟩
    · simp [hk]
    · have hne : k.val ≠ i + 1 := fun h => hk (Fin.ext h)
      rw [if_neg hk, mul_zero, zero_add]
      by_cases hk' : k.val ≤ i
      · rw [if_pos hk', if_pos (by omega)]
      · rw [if_neg hk', if_neg (by omega)]

theorem proj_none {eigs : Fin n → ℝ} {T : RMat n} {i j : Fin n} (hij : i ≠ j) (h : eigs i = eigs j) :
    ∀ (k : Nat) (hk : k < n), j.val ≤ k → proj eigs T i k hk = none
  | 0, hk, hjk => by
    have hj : j = ⟨0, hk⟩ := Fin.ext (Nat.le_zero.1 hjk)
    have hi : i.val ≠ 0 := fun h => hij (by rw [hj]; exact Fin.ext h)
    rw [proj, if_neg (by have := i.isLt; omega), if_neg hi]
    exact factor_none (by rw [h, hj])
  | k + 1, hk, hjk => by
    have hne : i.val ≠ j.val := fun h => hij (Fin.ext h)
    rw [proj]
    by_cases hjk' : j.val = k + 1
    · have hj : j = ⟨k + 1, hk⟩ := Fin.ext hjk'
      have hf : factor eigs T i ⟨k + 1, hk⟩ = none := factor_none (by rw [h, hj])
      rw [hf, if_neg (show ¬ i.val = k + 1 by omega)]
      split <;> rfl
    · have ih := proj_none (T := T) hij h k (by omega) (by omega)
      rw [ih, if_neg (by omega)]
      split
      · rfl
      · cases factor eigs T i ⟨k + 1, hk⟩ <;> rfl

theorem summand_none_log {eigs : Fin n → ℝ} {T : RMat n} {j : Fin n} (h : ¬ 0 < eigs j) :
    ∀ (k : Nat) (hk : k < n), j.val ≤ k → summand eigs T k hk = none
  | 0, hk, hjk => by
    have hj : j = ⟨0, hk⟩ := Fin.ext (Nat.le_zero.1 hjk)
    rw [summand, ← hj, stdLog, if_neg h]; rfl
  | k + 1, hk, hjk => by
    rw [summand]
    by_cases hjk' : j.val = k + 1
    · have hj : j = ⟨k + 1, hk⟩ := Fin.ext hjk'
      rw [← hj, stdLog, if_neg h]; rfl
    · rw [summand_none_log (T := T) h k (by omega) (by omega)]
      cases stdLog (eigs ⟨k + 1, hk⟩) <;> cases projAll eigs T ⟨k + 1, hk⟩ <;> rfl

theorem summand_none_proj {eigs : Fin n → ℝ} {T : RMat n} {i j : Fin n} (hij : i ≠ j) (h : eigs i = eigs j) :
    ∀ (k : Nat) (hk : k < n), i.val ≤ k → summand eigs T k hk = none
  | 0, hk, hjk => by
    have hi : i = ⟨0, hk⟩ := Fin.ext (Nat.le_zero.1 hjk)
    rw [summand, ← hi, projAll, proj_none hij h _ _ (by have := j.isLt; omega)]
    cases stdLog (eigs i) <;> rfl
  | k + 1, hk, hjk => by
    rw [summand]
    by_cases hjk' : i.val = k + 1
    · have hi : i = ⟨k + 1, hk⟩ := Fin.ext hjk'
      rw [← hi, projAll, proj_none hij h _ _ (by have := j.isLt; omega)]
      cases stdLog (eigs i) <;> rfl
    · rw [summand_none_proj (T := T) hij h k (by omega) (by omega)]
      cases stdLog (eigs ⟨k + 1, hk⟩) <;> cases projAll eigs T ⟨k + 1, hk⟩ <;> rfl

/-! ### Functions of matrices do not depend on the decomposition -/

theorem spec_indep {V U : RMat n} (hV : V * Vᵀ = 1) (hU : U * Uᵀ = 1) {d e : Fin n → ℝ} (h : spec V d = spec U e)
    (f : ℝ → ℝ) : spec V (fun k => f (d k)) = spec U (fun k => f (e k)) := by
  have hV' : Vᵀ * V = 1 := mul_eq_one_comm.1 hV
  have hU' : Uᵀ * U = 1 := mul_eq_one_comm.1 hU
  -- the change of basis
  have hW : ∀ (d e : Fin n → ℝ), spec V d = spec U e ↔ Uᵀ * V * diagonal d = diagonal e * (Uᵀ * V) := by
    intro d e
    constructor
    · intro h
      calc Uᵀ * V * diagonal d = Uᵀ * spec V d * V := by
            rw [spec]; simp only [Matrix.mul_assoc, hV', Matrix.mul_one]
        _ = (Uᵀ * U) * diagonal e * Uᵀ * V := by rw [h, spec]; simp only [Matrix.mul_assoc]
        _ = _ := by rw [hU', Matrix.one_mul, Matrix.mul_assoc]
    · intro h
      calc spec V d = U * (Uᵀ * V * diagonal d) * Vᵀ := by
            rw [spec]; simp only [← Matrix.mul_assoc, hU, Matrix.one_mul]
        _ = U * diagonal e * Uᵀ * (V * Vᵀ) := by rw [h]; simp only [Matrix.mul_assoc]
        _ = spec U e := by rw [hV, Matrix.mul_one]; rfl
  rw [hW] at h ⊢
  ext a b
  have := congrFun (congrFun h a) b
  rw [Matrix.mul_diagonal, Matrix.diagonal_mul] at this ⊢
  by_cases hz : (Uᵀ * V) a b = 0
  · rw [hz, zero_mul, mul_zero]
  · have : d b = e a := by
      rw [mul_comm] at this
      exact mul_right_cancel₀ hz this
    rw [this, mul_comm]

/-! ### The exponential -/

theorem exp_spec {V : RMat n} (hV : V * Vᵀ = 1) (f : Fin n → ℝ) :
    NormedSpace.exp (spec V f) = spec V (fun k => Real.exp (f k)) := by
  have hinv : V⁻¹ = Vᵀ := Matrix.inv_eq_right_inv hV
  have hu : IsUnit V := IsUnit.of_mul_eq_one Vᵀ hV
  rw [spec, ← hinv, Matrix.exp_conj V _ hu, Matrix.exp_diagonal, spec, hinv]
  congr 3
  funext k
  rw [Pi.coe_exp, Real.exp_eq_exp_ℝ]

theorem lowerSym_symm {A : RMat n} (h : A.IsSymm) : lowerSym A = A := by
  ext i j
  rw [lowerSym]
  split
  · rfl
  · exact h.apply i j

theorem exists_spec {B : RMat n} (h : B.IsSymm) : ∃ (U : RMat n) (b : Fin n → ℝ), U * Uᵀ = 1 ∧ B = spec U b := by
  have hB : B.IsHermitian := by
    rw [Matrix.IsHermitian, Matrix.conjTranspose_eq_transpose_of_trivial]; exact h
  refine ⟨hB.eigenvectorUnitary, hB.eigenvalues, ?_, ?_⟩
  · have := Unitary.coe_mul_star_self hB.eigenvectorUnitary
    rwa [Unitary.coe_star, Matrix.star_eq_conjTranspose, Matrix.conjTranspose_eq_transpose_of_trivial] at this
  · have := hB.spectral_theorem
    rw [Unitary.conjStarAlgAut_apply, Matrix.star_eq_conjTranspose,
      Matrix.conjTranspose_eq_transpose_of_trivial] at this
    exact this

theorem spec_symm (V : RMat n) (f : Fin n → ℝ) : (spec V f).IsSymm := by
  rw [Matrix.IsSymm, spec, Matrix.transpose_mul, Matrix.transpose_mul, Matrix.transpose_transpose, Matrix.diagonal_transpose,
    Matrix.mul_assoc]

theorem posDef_spec {V : RMat n} (hV : V * Vᵀ = 1) (f : Fin n → ℝ) : (spec V f).PosDef ↔ ∀ i, 0 < f i := by
  have hV' : Vᵀ * V = 1 := mul_eq_one_comm.1 hV
  constructor
  · intro h i
    have h1 := h.dotProduct_mulVec_pos (x := V *ᵥ Pi.single i 1) (by
      intro h0
      have : Vᵀ *ᵥ (V *ᵥ Pi.single i 1) = Pi.single i 1 := by rw [Matrix.mulVec_mulVec, hV', Matrix.one_mulVec]
      rw [h0, Matrix.mulVec_zero] at this
      have := congrFun this i
      simp at this)
    have h2 : spec V f *ᵥ (V *ᵥ Pi.single i 1) = f i • (V *ᵥ Pi.single i 1) := by
      rw [spec, Matrix.mulVec_mulVec, Matrix.mul_assoc, hV', Matrix.mul_one, ← Matrix.mulVec_mulVec,
        Matrix.diagonal_mulVec_single, ← Matrix.mulVec_smul]
      congr 1
      ext k
      by_cases hk : k = i
      · subst hk; simp
      · simp [hk]
    have h3 : (V *ᵥ Pi.single i 1) ⬝ᵥ (V *ᵥ Pi.single i 1) = (1 : ℝ) := by
      have := Matrix.dotProduct_transpose_mulVec V (Pi.single i 1) (V *ᵥ Pi.single i 1)
      rw [Matrix.mulVec_mulVec, hV', Matrix.one_mulVec] at this
      rw [← this]
      simp
    rw [h2, dotProduct_smul, star_trivial, h3] at h1
    simpa using h1
  · intro h
    have hd : (diagonal f).PosDef := Matrix.posDef_diagonal_iff.2 h
    have := hd.mul_mul_conjTranspose_same (B := V) (by
      intro x y hxy
      have := congrArg (fun z => z ᵥ* Vᵀ) hxy
      simpa [Matrix.vecMul_vecMul, hV] using this)
    rwa [Matrix.conjTranspose_eq_transpose_of_trivial] at this

theorem roots_spec {V : RMat n} (hV : V * Vᵀ = 1) (f : Fin n → ℝ) :
    (spec V f).charpoly.roots = Multiset.map f Finset.univ.val := by
  have hV' : Vᵀ * V = 1 := mul_eq_one_comm.1 hV
  rw [spec, Matrix.charpoly_mul_comm, ← Matrix.mul_assoc, hV', Matrix.one_mul, Matrix.charpoly_diagonal]
  rw [Polynomial.roots_prod]
  · simp
  · simp [Finset.prod_ne_zero_iff, Polynomial.X_sub_C_ne_zero]

end Verif.MatrixFun
