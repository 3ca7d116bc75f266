import Mathlib.Data.Matrix.Mul
import Mathlib.LinearAlgebra.Matrix.Notation
import Mathlib.Analysis.SpecialFunctions.Log.Basic
/-
Exponential and logarithm of matrices, eigen_tools.hh 257-540, in exact arithmetic.  The numbers are real numbers, so these
definitions cannot be evaluated.  `none` stands for a result with entries that are infinite or not a number.
-/
namespace Verif.MatrixFun
open Matrix

/-- `Mat_t<Dim>`, eigen_tools.hh 259-260. -/
abbrev RMat (n : Nat) := Matrix (Fin n) (Fin n) ℝ

/-- The result of `Eigen::SelfAdjointEigenSolver` (trusted): `eigenvalues()` and `eigenvectors()`, one vector per column.
Used at eigen_tools.hh 423-434. -/
structure Decomp (n : Nat) where
  vals : Fin n → ℝ
  vecs : RMat n

/-- `Solver.computeDirect(mat)`, eigen_tools.hh 436, 455.  The eigenvalues are assumed to be the same with and without the
computation of eigenvectors. -/
abbrev Solver (n : Nat) := RMat n → Decomp n

/-- What a solver for self-adjoint matrices sees: only the lower triangle is used.
Used at eigen_tools.hh 434 and 487. -/
def lowerSym {n : Nat} (A : RMat n) : RMat n := fun i j => if j ≤ i then A i j else A j i

/-- What is assumed of the solver: for every matrix, orthonormal eigenvectors and eigenvalues of the self-adjoint matrix with
the same lower triangle.  Solver of eigen_tools.hh 423-434. -/
def SolverSpec {n : Nat} (sv : Solver n) : Prop :=
  ∀ A, (sv A).vecs * (sv A).vecsᵀ = 1 ∧ lowerSym A = (sv A).vecs * diagonal (sv A).vals * (sv A).vecsᵀ

/-- The summand `x * vec * vec.transpose()` of the loops, eigen_tools.hh 472, 513. -/
def Decomp.dyad {n : Nat} (d : Decomp n) (x : ℝ) (i : Fin n) : RMat n :=
  vecMulVec (x • d.vecs.col i) (d.vecs.col i)

/-- `expm_spectral`, eigen_tools.hh 505-516: the loop over the eigenvalues. -/
noncomputable def expmSpectral {n : Nat} (d : Decomp n) : RMat n :=
  (List.finRange n).foldl (fun acc i => acc + d.dyad (Real.exp (d.vals i)) i) 0

/-- `expm`, eigen_tools.hh 522-536. -/
noncomputable def expm {n : Nat} (sv : Solver n) (A : RMat n) : RMat n := expmSpectral (sv A)

open Classical in
/-- `std::log`: infinite or not a number unless the argument is positive.
Called at eigen_tools.hh 390, 404 and 470. -/
noncomputable def stdLog (x : ℝ) : Option ℝ := if 0 < x then some (Real.log x) else none

open Classical in
/-- `1. / x`: infinite for zero.  eigen_tools.hh 283, 324, 347. -/
noncomputable def recip (x : ℝ) : Option ℝ := if x = 0 then none else some (1 / x)

/-- `logm_alt_spectral`, eigen_tools.hh 464-475. -/
noncomputable def logmAltSpectral {n : Nat} (d : Decomp n) : Option (RMat n) :=
  (List.finRange n).foldlM (fun acc i => do
    let l ← stdLog (d.vals i)
    pure (acc + d.dyad l i)) 0

/-- `logm_alt`, eigen_tools.hh 481-495. -/
noncomputable def logmAlt {n : Nat} (sv : Solver n) (A : RMat n) : Option (RMat n) := logmAltSpectral (sv A)

/-- `1. / (eigs(I) - eigs(J)) * (T - eigs(J) * Mat_t<Dim>::Identity())`, eigen_tools.hh 284-285, 324-325, 347-348. -/
noncomputable def factor {n : Nat} (eigs : Fin n → ℝ) (T : RMat n) (i j : Fin n) : Option (RMat n) := do
  let r ← recip (eigs i - eigs j)
  pure (r • (T - eigs j • (1 : RMat n)))

/-- `log_comp::Proj<Dim, I, J>::compute`, eigen_tools.hh 269-372; the specialisations are those of the template, `Dim = n`.
`Proj<Dim, 0, 0>` for `Dim > 1` matches two specialisations and would not compile; it is never instantiated, and `none`
here. -/
noncomputable def proj {n : Nat} (eigs : Fin n → ℝ) (T : RMat n) (i : Fin n) : (j : Nat) → j < n → Option (RMat n)
  | 0, h =>
      if n = 1 then some 1
      else if i.val = 0 then none
      else factor eigs T i ⟨0, h⟩
  | j + 1, h =>
      if i.val = 0 ∧ j = 0 then factor eigs T i ⟨j + 1, h⟩
      else if i.val = j + 1 then proj eigs T i j (by omega)
      else do
        let f ← factor eigs T i ⟨j + 1, h⟩
        let p ← proj eigs T i j (by omega)
        pure (f * p)

/-- `log_comp::P<I>`, eigen_tools.hh 375-380. -/
noncomputable def projAll {n : Nat} (eigs : Fin n → ℝ) (T : RMat n) (i : Fin n) : Option (RMat n) :=
  proj eigs T i (n - 1) (by have := i.isLt; omega)

/-- `log_comp::Summand<Dim, I>::compute`, eigen_tools.hh 383-408. -/
noncomputable def summand {n : Nat} (eigs : Fin n → ℝ) (T : RMat n) : (i : Nat) → i < n → Option (RMat n)
  | 0, h => do
      let l ← stdLog (eigs ⟨0, h⟩)
      let p ← projAll eigs T ⟨0, h⟩
      pure (l • p)
  | i + 1, h => do
      let l ← stdLog (eigs ⟨i + 1, h⟩)
      let p ← projAll eigs T ⟨i + 1, h⟩
      let s ← summand eigs T i (by omega)
      pure (l • p + s)

/-- `log_comp::Sum` and `logm`, eigen_tools.hh 411-416, 430-438; `Dim > 0` is a static assertion. -/
noncomputable def logm {n : Nat} (sv : Solver n) (A : RMat n) (hn : 0 < n) : Option (RMat n) :=
  summand (sv A).vals A (n - 1) (by omega)

end Verif.MatrixFun
