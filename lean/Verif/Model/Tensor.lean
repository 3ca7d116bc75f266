import Verif.Model.Basic
import Mathlib.Data.Matrix.Mul
import Mathlib.LinearAlgebra.Matrix.Trace
import Mathlib.Data.List.FinRange
/-
Tensor algebra on matrices, `/repo/src/libmugrid/tensor_algebra.hh` (namespace `Matrices`) and
`/repo/src/libmugrid/T4_map_proxy.hh`.

Entries are in a commutative ring or field instead of floating-point numbers.  Eigen's sum, product,
transpose, trace and identity of fixed-size matrices are trusted and taken from Mathlib; `F.inverse()` is
a parameter.  Loops are modelled as written.  Not modelled: lifetimes of expression templates.
-/
namespace Verif.Tensor

/-- Second-order tensor `Eigen::Matrix<Real, dim, dim>`, tensor_algebra.hh 136-137. -/
abbrev T2 (d : Nat) (R : Type) := Matrix (Fin d) (Fin d) R

/-- Fourth-order tensor `T4Mat<Real, dim>`, a `dim² x dim²` matrix, tensor_algebra.hh 139-140 and
T4_map_proxy.hh 44-58. -/
abbrev T4 (d : Nat) (R : Type) := Matrix (Fin (d * d)) (Fin (d * d)) R

/-- The row (or column) index computed by `get`, T4_map_proxy.hh 89-115, for a matrix with the given row and
column strides: `i * myRowStride + j * myColStride`. -/
def getIndex (d rowStride colStride i j : Nat) : Nat :=
  let myColStride := if colStride = 1 then colStride else colStride / d
  let myRowStride := if rowStride = 1 then rowStride else rowStride / d
  i * myRowStride + j * myColStride

/-- `getIndex` for a `T4Mat`, which is dense and column-major: row stride 1, column stride `d²`.  It is in
range. -/
theorem getIndex_lt {d : Nat} (i j : Fin d) : getIndex d 1 (d * d) i j < d * d := by
  have hd : 0 < d := i.pos
  have h : (if d * d = 1 then d * d else d * d / d) = d := by
    split
    · have : d = 1 := Nat.eq_one_of_mul_eq_one_left (by assumption)
      simp [this]
    · exact Nat.mul_div_cancel _ hd
  unfold getIndex
  simp only [h, if_true, Nat.mul_one]
  calc (i : Nat) + j * d < d + j * d := by omega
    _ = (j + 1) * d := by rw [Nat.add_mul, Nat.one_mul, Nat.add_comm]
    _ ≤ d * d := Nat.mul_le_mul_right _ j.isLt

/-- Position of the index pair `(i, j)` in a `T4Mat`.  T4_map_proxy.hh 90-115. -/
def pos {d : Nat} (i j : Fin d) : Fin (d * d) := ⟨getIndex d 1 (d * d) i j, getIndex_lt i j⟩

/-- `get(t4, i, j, k, l)` (read), T4_map_proxy.hh 89-99. -/
def get {d : Nat} {R : Type} (t : T4 d R) (i j k l : Fin d) : R := t (pos i j) (pos k l)

/-- `get(t4, i, j, k, l) = v`, T4_map_proxy.hh 105-115. -/
def set {d : Nat} {R : Type} (t : T4 d R) (i j k l : Fin d) (v : R) : T4 d R :=
  Matrix.of fun r c => if r = pos i j ∧ c = pos k l then v else t r c

/-- The four nested loops over `i`, `j`, `k`, `l`.  tensor_algebra.hh 163-167, 191-195, 219-223, 253-257. -/
def quads (d : Nat) : List (Fin d × Fin d × Fin d × Fin d) :=
  (List.finRange d).flatMap fun i => (List.finRange d).flatMap fun j =>
    (List.finRange d).flatMap fun k => (List.finRange d).map fun l => (i, j, k, l)

variable {d : Nat} {R : Type}

/-- `outer`, tensor_algebra.hh 153-175; `junk`: the uninitialised local `product`. -/
def outer [Mul R] (junk : T4 d R) (A B : T2 d R) : T4 d R :=
  (quads d).foldl (fun t q => set t q.1 q.2.1 q.2.2.1 q.2.2.2 (A q.1 q.2.1 * B q.2.2.1 q.2.2.2)) junk

/-- `outer_under`, tensor_algebra.hh 181-203. -/
def outerUnder [Mul R] (junk : T4 d R) (A B : T2 d R) : T4 d R :=
  (quads d).foldl (fun t q => set t q.1 q.2.1 q.2.2.1 q.2.2.2 (A q.1 q.2.2.1 * B q.2.1 q.2.2.2)) junk

/-- `outer_over`, tensor_algebra.hh 209-231. -/
def outerOver [Mul R] (junk : T4 d R) (A B : T2 d R) : T4 d R :=
  (quads d).foldl (fun t q => set t q.1 q.2.1 q.2.2.1 q.2.2.2 (A q.1 q.2.2.2 * B q.2.1 q.2.2.1)) junk

/-- `m(i, j) += v`.  tensor_algebra.hh 257. -/
def addEntry [Add R] (m : T2 d R) (i j : Fin d) (v : R) : T2 d R :=
  Matrix.of fun r c => if r = i ∧ c = j then m r c + v else m r c

/-- `tensmult` of a fourth- and a second-order tensor, tensor_algebra.hh 236-263 and 306-318. -/
def tensmult [Mul R] [Add R] [Zero R] (A : T4 d R) (B : T2 d R) : T2 d R :=
  (quads d).foldl (fun t q =>
    addEntry t q.1 q.2.1 (get A q.1 q.2.1 q.2.2.1 q.2.2.2 * B q.2.2.1 q.2.2.2)) 0

/-- `tensmult` of a second- and a first-order tensor, tensor_algebra.hh 266-290: `A * B`. -/
def tensmult1 [NonUnitalNonAssocSemiring R] (A : T2 d R) (b : Fin d → R) : Fin d → R := A.mulVec b

/-- `Itrac`, tensor_algebra.hh 321-325. -/
def Itrac [Mul R] [Zero R] [One R] (junk : T4 d R) : T4 d R := outer junk 1 1

/-- `Iiden`, tensor_algebra.hh 328-332. -/
def Iiden [Mul R] [Zero R] [One R] (junk : T4 d R) : T4 d R := outerUnder junk 1 1

/-- `Itrns`, tensor_algebra.hh 335-339. -/
def Itrns [Mul R] [Zero R] [One R] (junk : T4 d R) : T4 d R := outerOver junk 1 1

/-- `Isymm`, tensor_algebra.hh 342-346. -/
def Isymm [Field R] (junk junk' : T4 d R) : T4 d R := (1 / 2 : R) • (outerUnder junk 1 1 + outerOver junk' 1 1)

/-- `Iasymm`, tensor_algebra.hh 349-352. -/
def Iasymm [Field R] (junk junk' junk'' : T4 d R) : T4 d R :=
  Isymm junk junk' - (1 / 3 : R) • Itrac junk''

/-- The five nested loops of `Dotter::dot`, in the order of the first variant.  tensor_algebra.hh 373-378. -/
def quints (d : Nat) : List (Fin d × Fin d × Fin d × Fin d × Fin d) :=
  (List.finRange d).flatMap fun i => (List.finRange d).flatMap fun a =>
    (List.finRange d).flatMap fun j => (List.finRange d).flatMap fun k => (List.finRange d).map fun l =>
      (i, a, j, k, l)

/-- `get(t, i, j, k, l) += v`.  tensor_algebra.hh 378, 405. -/
def addTo [Add R] (t : T4 d R) (i j k l : Fin d) (v : R) : T4 d R := set t i j k l (get t i j k l + v)

/-- `Dotter<Dim, secondOrder, fourthOrder>::dot`, tensor_algebra.hh 365-387. -/
def dot24 [Mul R] [Add R] [Zero R] (A : T2 d R) (B : T4 d R) : T4 d R :=
  (quints d).foldl (fun t q => addTo t q.1 q.2.2.1 q.2.2.2.1 q.2.2.2.2
    (A q.1 q.2.1 * get B q.2.1 q.2.2.1 q.2.2.2.1 q.2.2.2.2)) 0

/-- `Dotter<Dim, fourthOrder, secondOrder>::dot`, tensor_algebra.hh 392-414: loops over `i, j, k, a, l`. -/
def dot42 [Mul R] [Add R] [Zero R] (A : T4 d R) (B : T2 d R) : T4 d R :=
  (quints d).foldl (fun t q =>
    -- here `q = (i, j, k, a, l)`
    addTo t q.1 q.2.1 q.2.2.1 q.2.2.2.2
      (get A q.1 q.2.1 q.2.2.1 q.2.2.2.1 * B q.2.2.2.1 q.2.2.2.2)) 0

/-- `Dotter<Dim, fourthOrder, fourthOrder>::ddot`, tensor_algebra.hh 419-427. -/
def ddot44 [NonUnitalNonAssocSemiring R] (A B : T4 d R) : T4 d R := A * B

/-- `Dotter<Dim, secondOrder, secondOrder>::ddot`, tensor_algebra.hh 433-441. -/
def ddot22 [NonUnitalNonAssocSemiring R] (A B : T2 d R) : R := Matrix.trace (A * B.transpose)

/-- `AxisTransformer<firstOrder>::push_forward`, tensor_algebra.hh 480-493. -/
def pushForward1 [NonUnitalNonAssocSemiring R] (t : Fin d → R) (F : T2 d R) : Fin d → R := F.mulVec t

/-- `AxisTransformer<secondOrder>::push_forward`, tensor_algebra.hh 510-523. -/
def pushForward2 [NonUnitalNonAssocSemiring R] (t F : T2 d R) : T2 d R := F * t * F.transpose

/-- `AxisTransformer<fourthOrder>::push_forward`, tensor_algebra.hh 541-556. -/
def pushForward4 [NonUnitalNonAssocSemiring R] (junk junk' : T4 d R) (t : T4 d R) (F : T2 d R) : T4 d R :=
  outerUnder junk F F * t * outerUnder junk' F.transpose F.transpose

/-- `AxisTransformer<firstOrder>::pull_back`, tensor_algebra.hh 495-505; `inv`: Eigen's `inverse()`. -/
def pullBack1 [NonUnitalNonAssocSemiring R] (inv : T2 d R → T2 d R) (t : Fin d → R) (F : T2 d R) : Fin d → R :=
  pushForward1 t (inv F)

/-- `AxisTransformer<secondOrder>::pull_back`, tensor_algebra.hh 525-535. -/
def pullBack2 [NonUnitalNonAssocSemiring R] (inv : T2 d R → T2 d R) (t F : T2 d R) : T2 d R :=
  pushForward2 t (inv F)

/-- `AxisTransformer<fourthOrder>::pull_back`, tensor_algebra.hh 558-568. -/
def pullBack4 [NonUnitalNonAssocSemiring R] (junk junk' : T4 d R) (inv : T2 d R → T2 d R) (t : T4 d R)
    (F : T2 d R) : T4 d R :=
  pushForward4 junk junk' t (inv F)

/-! Namespace `Tensors` -/

/-- `Tensors::outer`: `A.contract(B, {})`, tensor_algebra.hh 86-99; the entry at `(i, j, k, l)` of Eigen's
contraction over no index pair is `A(i, j) * B(k, l)`. -/
def tOuter [Mul R] (A B : Fin d → Fin d → R) (i j k l : Fin d) : R := A i j * B k l

/-- Eigen's `shuffle(s)`: dimension `n` of the result is dimension `s[n]` of the argument, so the index at
place `n` of the result stands at place `s[n]` of the argument.  Used at tensor_algebra.hh 109 and 121. -/
def shuffle (T : Fin d → Fin d → Fin d → Fin d → R) (s : Fin 4 → Fin 4) (i j k l : Fin d) : Option R :=
  let out : Fin 4 → Fin d := fun n => match n with
    | 0 => i
    | 1 => j
    | 2 => k
    | 3 => l
  let place (p : Fin 4) : Option (Fin d) := ((List.finRange 4).find? (fun n => s n = p)).map out
  do
    let a ← place 0
    let b ← place 1
    let c ← place 2
    let e ← place 3
    pure (T a b c e)

/-- `Tensors::outer_under`, tensor_algebra.hh 107-111: shuffle `{0, 2, 1, 3}`. -/
def tOuterUnder [Mul R] (A B : Fin d → Fin d → R) : Fin d → Fin d → Fin d → Fin d → Option R :=
  shuffle (tOuter A B) (fun n => match n with
    | 0 => 0
    | 1 => 2
    | 2 => 1
    | 3 => 3)

/-- `Tensors::outer_over`, tensor_algebra.hh 119-123: shuffle `{0, 2, 3, 1}`. -/
def tOuterOver [Mul R] (A B : Fin d → Fin d → R) : Fin d → Fin d → Fin d → Fin d → Option R :=
  shuffle (tOuter A B) (fun n => match n with
    | 0 => 0
    | 1 => 2
    | 2 => 3
    | 3 => 1)

end Verif.Tensor
