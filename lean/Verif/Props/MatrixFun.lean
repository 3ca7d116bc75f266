import Verif.Lemmas.MatrixFun
/-
Properties of the exponential and the logarithm of matrices: C68.  The specification is Mathlib's exponential of matrices
(`NormedSpace.exp`, the limit of the power series).
-/
namespace Verif.Props
open Verif.MatrixFun Matrix

variable {n : Nat}

/-- The full statement: both functions give the logarithm of every positive definite matrix. -/
def C68_statement : Prop :=
  ∀ (n : Nat) (hn : 0 < n) (sv : Solver n), SolverSpec sv → ∀ A : RMat n, A.PosDef →
    (∃ B, logmAlt sv A = some B ∧ NormedSpace.exp B = A) ∧ ∃ B, logm sv A hn = some B ∧ NormedSpace.exp B = A

/-- `expm` is the exponential of the symmetric matrix with the same lower triangle. -/
theorem C68_expm_lower {sv : Solver n} (hs : SolverSpec sv) (A : RMat n) :
    expm sv A = NormedSpace.exp (lowerSym A) := by
  obtain ⟨h1, h2⟩ := hs A
  rw [expm, expmSpectral_eq, h2]
  exact (exp_spec h1 _).symm

/-- `expm` is the exponential of any symmetric matrix. -/
theorem C68_expm {sv : Solver n} (hs : SolverSpec sv) {A : RMat n} (hA : A.IsSymm) : expm sv A = NormedSpace.exp A := by
  rw [C68_expm_lower hs, lowerSym_symm hA]

theorem decomp_of {sv : Solver n} (hs : SolverSpec sv) {A : RMat n} (hA : A.IsSymm) :
    (sv A).vecs * (sv A).vecsᵀ = 1 ∧ A = spec (sv A).vecs (sv A).vals := by
  obtain ⟨h1, h2⟩ := hs A
  rw [lowerSym_symm hA] at h2
  exact ⟨h1, h2⟩

theorem symm_of_posDef {A : RMat n} (hA : A.PosDef) : A.IsSymm := by
  have := hA.1
  rwa [Matrix.IsHermitian, Matrix.conjTranspose_eq_transpose_of_trivial] at this

theorem vals_pos {sv : Solver n} (hs : SolverSpec sv) {A : RMat n} (hA : A.IsSymm) : A.PosDef ↔ ∀ i, 0 < (sv A).vals i := by
  obtain ⟨h1, h2⟩ := decomp_of hs hA
  rw [← posDef_spec h1, ← h2]

theorem vals_inj {sv : Solver n} (hs : SolverSpec sv) {A : RMat n} (hA : A.IsSymm) :
    A.charpoly.roots.Nodup ↔ Function.Injective (sv A).vals := by
  obtain ⟨h1, h2⟩ := decomp_of hs hA
  have := roots_spec h1 (sv A).vals
  rw [← h2] at this
  rw [this]
  constructor
  · intro h a b hab
    exact Multiset.inj_on_of_nodup_map h a (Finset.mem_univ a) b (Finset.mem_univ b) hab
  · intro h
    exact Multiset.Nodup.map h Finset.univ.nodup

/-- `logm_alt` gives the logarithm of a positive definite matrix: the only symmetric matrix of which it is the
exponential. -/
theorem C68_logm_alt {sv : Solver n} (hs : SolverSpec sv) {A : RMat n} (hA : A.PosDef) :
    ∃ B, logmAlt sv A = some B ∧ B.IsSymm ∧ NormedSpace.exp B = A ∧
      ∀ B' : RMat n, B'.IsSymm → NormedSpace.exp B' = A → B' = B := by
  have hsym := symm_of_posDef hA
  have hpos := (vals_pos hs hsym).1 hA
  obtain ⟨h1, h2⟩ := decomp_of hs hsym
  refine ⟨_, logmAltSpectral_eq _ hpos, spec_symm _ _, ?_, ?_⟩
  · rw [exp_spec h1]
    simp only [Real.exp_log (hpos _)]
    exact h2.symm
  · intro B' hB' he
    obtain ⟨U, b, hU, rfl⟩ := exists_spec hB'
    rw [exp_spec hU, h2] at he
    have := spec_indep hU h1 he Real.log
    simpa only [Real.log_exp] using this

/-- `logm_alt` of a symmetric matrix has finite entries exactly if the matrix is positive definite. -/
theorem C68_logm_alt_defined {sv : Solver n} (hs : SolverSpec sv) {A : RMat n} (hA : A.IsSymm) :
    (logmAlt sv A).isSome ↔ A.PosDef := by
  rw [vals_pos hs hA]
  by_cases h : ∀ i, 0 < (sv A).vals i
  · rw [logmAlt, logmAltSpectral_eq _ h]; simpa using h
  · rw [logmAlt, logmAltSpectral_none _ h]; simpa using h

/-- `logm_alt` undoes `expm` for every symmetric matrix, also with different solvers. -/
theorem C68_inverse {sv sv' : Solver n} (hs : SolverSpec sv) (hs' : SolverSpec sv') {A : RMat n} (hA : A.IsSymm) :
    logmAlt sv (expm sv' A) = some A := by
  have he := C68_expm hs' hA
  obtain ⟨U, b, hU, hb⟩ := exists_spec hA
  have hpd : (expm sv' A).PosDef := by
    rw [he, hb, exp_spec hU, posDef_spec hU]
    exact fun i => Real.exp_pos _
  obtain ⟨B, h1, -, -, h2⟩ := C68_logm_alt hs hpd
  rw [h1, h2 A hA he.symm]

/-- `logm` is the same as `logm_alt`, for positive definite matrices with distinct eigenvalues, in any dimension. -/
theorem C68_logm_partial {sv : Solver n} (hs : SolverSpec sv) {A : RMat n} (hA : A.PosDef) (hd : A.charpoly.roots.Nodup)
    (hn : 0 < n) : logm sv A hn = logmAlt sv A ∧ ∃ B, logm sv A hn = some B ∧ NormedSpace.exp B = A := by
  have hsym := symm_of_posDef hA
  have hpos := (vals_pos hs hsym).1 hA
  have hinj := (vals_inj hs hsym).1 hd
  obtain ⟨h1, h2⟩ := decomp_of hs hsym
  have heq : logm sv A hn = logmAlt sv A := by
    rw [logmAlt, logmAltSpectral_eq _ hpos, logm]
    have := summand_eq h1 hinj hpos (n - 1) (by omega)
    rw [← h2] at this
    rw [this]
    congr 2
    funext k
    rw [if_pos (by have := k.isLt; omega)]
  obtain ⟨B, h3, -, h4, -⟩ := C68_logm_alt hs hA
  exact ⟨heq, B, by rw [heq, h3], h4⟩

/-- `logm` of a symmetric matrix has finite entries exactly if the matrix is positive definite and its eigenvalues are
distinct. -/
theorem C68_logm_defined {sv : Solver n} (hs : SolverSpec sv) {A : RMat n} (hA : A.IsSymm) (hn : 0 < n) :
    (logm sv A hn).isSome ↔ A.PosDef ∧ A.charpoly.roots.Nodup := by
  constructor
  · intro h
    rw [vals_pos hs hA, vals_inj hs hA]
    constructor
    · intro i
      by_contra hi
      rw [logm, summand_none_log hi _ _ (by have := i.isLt; omega)] at h
      cases h
    · intro i j hij
      by_contra hne
      rw [logm, summand_none_proj hne hij _ _ (by have := i.isLt; omega)] at h
      cases h
  · intro h
    obtain ⟨-, B, h1, -⟩ := C68_logm_partial hs h.1 h.2 hn
    rw [h1]; rfl

/-- There is a solver as assumed. -/
theorem C68_solver (n : Nat) : ∃ sv : Solver n, SolverSpec sv := by
  have hs : ∀ A : RMat n, (lowerSym A).IsSymm := by
    intro A
    ext i j
    rw [Matrix.transpose_apply, lowerSym, lowerSym]
    rcases lt_trichotomy i j with h | h | h
    · rw [if_pos h.le, if_neg (not_le.2 h)]
    · rw [h]
    · rw [if_neg (not_le.2 h), if_pos h.le]
  refine ⟨fun A => ⟨(exists_spec (hs A)).choose_spec.choose, (exists_spec (hs A)).choose⟩, fun A => ?_⟩
  exact (exists_spec (hs A)).choose_spec.choose_spec

/-- `logm` of a multiple of the identity is not defined, in any dimension greater than one: it divides by zero. -/
theorem C68_logm_identity {sv : Solver n} (hs : SolverSpec sv) (hn : 1 < n) (c : ℝ) :
    logm sv (c • (1 : RMat n)) (by omega) = none := by
  have hsym : (c • (1 : RMat n)).IsSymm := by
    rw [Matrix.IsSymm, Matrix.transpose_smul, Matrix.transpose_one]
  rw [← Option.not_isSome_iff_eq_none, C68_logm_defined hs hsym]
  rintro ⟨-, h⟩
  rw [vals_inj hs hsym] at h
  obtain ⟨h1, h2⟩ := decomp_of hs hsym
  -- all eigenvalues are the same
  have hcol : ∀ i, (sv (c • (1 : RMat n))).vals i = c := by
    intro i
    have hV' := mul_eq_one_comm.1 h1
    have h3 := congrArg (fun M => (sv (c • (1 : RMat n))).vecsᵀ * M * (sv (c • (1 : RMat n))).vecs) h2
    rw [spec, Matrix.mul_smul, Matrix.mul_one, Matrix.smul_mul, hV'] at h3
    have h4 : (sv (c • (1 : RMat n))).vecsᵀ * ((sv (c • (1 : RMat n))).vecs * diagonal (sv (c • (1 : RMat n))).vals *
        (sv (c • (1 : RMat n))).vecsᵀ) * (sv (c • (1 : RMat n))).vecs = diagonal (sv (c • (1 : RMat n))).vals := by
      simp only [Matrix.mul_assoc, hV', Matrix.mul_one]
      rw [← Matrix.mul_assoc, hV', Matrix.one_mul]
    rw [h4] at h3
    have := congrFun (congrFun h3 i) i
    simpa using this.symm
  have := h ((hcol ⟨0, by omega⟩).trans (hcol ⟨1, hn⟩).symm)
  simp at this

/-- Counterexample: the identity. -/
theorem C68_false : ¬ C68_statement := by
  intro h
  obtain ⟨sv, hs⟩ := C68_solver 2
  obtain ⟨-, B, h1, -⟩ := h 2 (by omega) sv hs 1 Matrix.PosDef.one
  have := C68_logm_identity hs (by omega) 1
  rw [one_smul] at this
  rw [this] at h1
  cases h1

/-- The matrix in the examples. -/
def exSym : RMat 2 := !![2, 2; 2, 5]

/-- Its eigenvectors. -/
noncomputable def exVecs : RMat 2 := (1 / Real.sqrt 5) • !![2, 1; -1, 2]

theorem sqrt_five : (1 / Real.sqrt 5) * (1 / Real.sqrt 5) = 1 / 5 := by
  rw [div_mul_div_comm, Real.mul_self_sqrt (by norm_num), one_mul]

theorem exVecs_transpose : (!![2, 1; -1, 2] : RMat 2)ᵀ = !![2, -1; 1, 2] := by
  ext i j
  fin_cases i <;> fin_cases j <;> rfl

theorem exVecs_orth : exVecs * exVecsᵀ = 1 := by
  rw [exVecs, Matrix.transpose_smul, Matrix.smul_mul, Matrix.mul_smul, smul_smul, sqrt_five, exVecs_transpose,
    Matrix.mul_fin_two, Matrix.one_fin_two]
  ext i j
  fin_cases i <;> fin_cases j <;> norm_num

theorem exSym_spec : exSym = spec exVecs ![1, 6] := by
  have hd : (diagonal ![1, 6] : RMat 2) = !![1, 0; 0, 6] := by
    ext i j
    fin_cases i <;> fin_cases j <;> simp [Matrix.diagonal]
  rw [exSym, spec, exVecs, Matrix.transpose_smul, Matrix.smul_mul, Matrix.smul_mul, Matrix.mul_smul, smul_smul, sqrt_five,
    exVecs_transpose, hd, Matrix.mul_fin_two, Matrix.mul_fin_two]
  ext i j
  fin_cases i <;> fin_cases j <;> norm_num

/-- A positive definite matrix with distinct eigenvalues. -/
example : exSym.PosDef ∧ exSym.charpoly.roots.Nodup := by
  rw [exSym_spec]
  refine ⟨(posDef_spec exVecs_orth _).2 fun i => by fin_cases i <;> norm_num, ?_⟩
  rw [roots_spec exVecs_orth]
  refine Multiset.Nodup.map ?_ Finset.univ.nodup
  intro a b h
  fin_cases a <;> fin_cases b <;> first | rfl | (norm_num at h)

/-- A symmetric matrix that is not positive definite, for `C68_expm`, `C68_inverse` and `C68_logm_alt_defined`. -/
example : (!![0, 1; 1, 0] : RMat 2).IsSymm := by
  ext i j
  fin_cases i <;> fin_cases j <;> rfl

/-- The comment on `logm` names diagonalisable matrices, but for matrices that are not symmetric the result can be wrong:
this one has the eigenvalues 2 and 5. -/
theorem C68_logm_lower {sv : Solver 2} (hs : SolverSpec sv) :
    ∃ B, logm sv !![2, 0; 2, 5] (by omega) = some B ∧ NormedSpace.exp B ≠ !![2, 0; 2, 5] := by
  have hlow : lowerSym (!![2, 0; 2, 5] : RMat 2) = exSym := by
    ext i j
    fin_cases i <;> fin_cases j <;> simp [lowerSym, exSym]
  obtain ⟨h1, h2⟩ := hs !![2, 0; 2, 5]
  rw [hlow, exSym_spec] at h2
  have h3 : (spec exVecs ![1, 6]).charpoly.roots = (spec (sv !![2, 0; 2, 5]).vecs (sv !![2, 0; 2, 5]).vals).charpoly.roots := by
    rw [h2]; rfl
  rw [roots_spec h1, roots_spec exVecs_orth] at h3
  rw [logm]
  generalize (sv !![2, 0; 2, 5]).vals = e at h3 ⊢
  have h4 : (e 0 = 1 ∧ e 1 = 6) ∨ (e 0 = 6 ∧ e 1 = 1) := by
    have hu : (Finset.univ : Finset (Fin 2)).val = {0, 1} := rfl
    rw [hu] at h3
    simp only [Multiset.insert_eq_cons, Multiset.map_cons, Multiset.map_singleton, Matrix.cons_val_zero, Matrix.cons_val_one] at h3
    rw [Multiset.cons_eq_cons] at h3
    rcases h3 with ⟨h, h'⟩ | ⟨-, c, h, h'⟩
    · exact .inl ⟨h.symm, by simpa using h'.symm⟩
    · have hc : c = 0 := by
        have := congrArg Multiset.card h
        simpa using this
      rw [hc] at h h'
      exact .inr ⟨by simpa using h.symm, by simpa using h'⟩
  -- the result in both cases
  have h5 : summand e (!![2, 0; 2, 5] : RMat 2) 1 (by omega) = some ((Real.log 6 / 5) • !![1, 0; 2, 4]) := by
    have hp : ∀ x y : Fin 2, e x ≠ e y → factor e (!![2, 0; 2, 5] : RMat 2) x y =
        some ((1 / (e x - e y)) • ((!![2, 0; 2, 5] : RMat 2) - e y • (1 : RMat 2))) := by
      intro x y h
      rw [factor, recip_some (sub_ne_zero.2 h)]; rfl
    have h0 : proj e (!![2, 0; 2, 5] : RMat 2) 0 1 (by omega) = factor e !![2, 0; 2, 5] 0 1 := rfl
    have h1 : proj e (!![2, 0; 2, 5] : RMat 2) 1 1 (by omega) = factor e !![2, 0; 2, 5] 1 0 := rfl
    have hs : summand e (!![2, 0; 2, 5] : RMat 2) 1 (by omega) = (do
        let l ← stdLog (e 1)
        let p ← proj e (!![2, 0; 2, 5] : RMat 2) 1 1 (by omega)
        let s ← (do
          let l ← stdLog (e 0)
          let p ← proj e (!![2, 0; 2, 5] : RMat 2) 0 1 (by omega)
          pure (l • p))
        pure (l • p + s)) := rfl
    rw [hs, h0, h1]
    rcases h4 with ⟨ha, hb⟩ | ⟨ha, hb⟩
    · rw [hp 0 1 (by rw [ha, hb]; norm_num), hp 1 0 (by rw [ha, hb]; norm_num), ha, hb, stdLog, stdLog,
        if_pos (by norm_num), if_pos (by norm_num)]
      simp only [Option.bind_eq_bind, Option.bind_some, Option.pure_def, Real.log_one, zero_smul, add_zero]
      rw [Matrix.one_fin_two]
      congr 1
      ext i j
      fin_cases i <;> fin_cases j <;> simp <;> ring
    · rw [hp 0 1 (by rw [ha, hb]; norm_num), hp 1 0 (by rw [ha, hb]; norm_num), ha, hb, stdLog, stdLog,
        if_pos (by norm_num), if_pos (by norm_num)]
      simp only [Option.bind_eq_bind, Option.bind_some, Option.pure_def, Real.log_one, zero_smul, zero_add]
      rw [Matrix.one_fin_two]
      congr 1
      ext i j
      fin_cases i <;> fin_cases j <;> simp <;> ring
  refine ⟨_, h5, ?_⟩
  -- the eigenvectors of the result
  have hU : (!![1, 0; -2 / 3, 1] : RMat 2) * !![1, 0; 2 / 3, 1] = 1 := by
    rw [Matrix.mul_fin_two, Matrix.one_fin_two]
    ext i j
    fin_cases i <;> fin_cases j <;> norm_num
  have hinv : (!![1, 0; -2 / 3, 1] : RMat 2)⁻¹ = !![1, 0; 2 / 3, 1] := Matrix.inv_eq_right_inv hU
  have hunit : IsUnit (!![1, 0; -2 / 3, 1] : RMat 2) := IsUnit.of_mul_eq_one _ hU
  have hd : ∀ x y : ℝ, (diagonal ![x, y] : RMat 2) = !![x, 0; 0, y] := by
    intro x y
    ext i j
    fin_cases i <;> fin_cases j <;> simp [Matrix.diagonal]
  have hB : (Real.log 6 / 5) • (!![1, 0; 2, 4] : RMat 2) =
      !![1, 0; -2 / 3, 1] * diagonal ![Real.log 6 / 5, 4 * (Real.log 6 / 5)] * (!![1, 0; -2 / 3, 1] : RMat 2)⁻¹ := by
    rw [hinv, hd, Matrix.mul_fin_two, Matrix.mul_fin_two]
    ext i j
    fin_cases i <;> fin_cases j <;> simp <;> ring
  have hexp : NormedSpace.exp ![Real.log 6 / 5, 4 * (Real.log 6 / 5)] =
      ![Real.exp (Real.log 6 / 5), Real.exp (4 * (Real.log 6 / 5))] := by
    funext k
    rw [Pi.coe_exp, ← Real.exp_eq_exp_ℝ]
    fin_cases k <;> rfl
  rw [hB, Matrix.exp_conj _ _ hunit, Matrix.exp_diagonal, hexp, hinv, hd, Matrix.mul_fin_two, Matrix.mul_fin_two]
  intro h
  have h00 := congrFun (congrFun h 0) 0
  have h00' : Real.exp (Real.log 6 / 5) = 2 := by simpa using h00
  have h6 : Real.exp (Real.log 6 / 5) ^ 5 = 6 := by
    rw [← Real.exp_nat_mul]
    have : ((5 : ℕ) : ℝ) * (Real.log 6 / 5) = Real.log 6 := by push_cast; ring
    rw [this, Real.exp_log (by norm_num)]
  rw [h00'] at h6
  norm_num at h6

/-- The hypotheses together, for this matrix and an eigenvalue solver that exists by `C68_solver`. -/
example : ∃ sv : Solver 2, SolverSpec sv ∧ logm sv exSym (by omega) = logmAlt sv exSym ∧
    (∃ B, logm sv exSym (by omega) = some B ∧ NormedSpace.exp B = exSym) ∧
    (logm sv exSym (by omega)).isSome ∧ logm sv ((3 : ℝ) • 1) (by omega) = none ∧
    expm sv exSym = NormedSpace.exp (lowerSym exSym) := by
  have hp : exSym.PosDef ∧ exSym.charpoly.roots.Nodup := by
    rw [exSym_spec]
    refine ⟨(posDef_spec exVecs_orth _).2 fun i => by fin_cases i <;> norm_num, ?_⟩
    rw [roots_spec exVecs_orth]
    refine Multiset.Nodup.map ?_ Finset.univ.nodup
    intro a b h
    fin_cases a <;> fin_cases b <;> first | rfl | (norm_num at h)
  have hsym : exSym.IsSymm := by
    ext i j
    fin_cases i <;> fin_cases j <;> rfl
  obtain ⟨sv, hs⟩ := C68_solver 2
  have h := C68_logm_partial hs hp.1 hp.2 (by omega)
  exact ⟨sv, hs, h.1, h.2, (C68_logm_defined hs hsym (by omega)).2 hp, C68_logm_identity hs (by omega) 3,
    C68_expm_lower hs exSym⟩

end Verif.Props
