import Verif.Props.Tensor
import Verif.Spec.TensorDispatch
import Mathlib.Tactic.Linarith
import Mathlib.Tactic.FinCases
/-
C92: which tensor operation is chosen for matrices of given sizes.
-/
namespace Verif.Props
open Verif.Tensor Verif.TensorDispatch

/-! ### The order found from the size -/

/-- C92: from two dimensions on the order is recovered from the size. -/
theorem C92_rank_partial (h : 2 ≤ d) (t : Tens d R) : getRank d t.rep.rows t.rep.cols = some t.order := by
  have h1 : d ≠ 1 := by omega
  have h2 : d * d ≠ d := by nlinarith
  cases t <;> simp [getRank, Tens.rep, Tens.order, column, square, square4, h1, h2]

example : getRank 2 (Tens.four (1 : T4 2 ℚ)).rep.rows (Tens.four (1 : T4 2 ℚ)).rep.cols = some Order.fourth :=
  C92_rank_partial (le_refl _) _

/-- In one dimension every tensor is taken for a vector. -/
theorem C92_rank_one (t : Tens 1 R) : getRank 1 t.rep.rows t.rep.cols = some .first := by
  cases t <;> rfl

/-- C92: the iterates of a field map for tensors of order `rank` (`TensorMap`) are represented as the tensor operations
expect them, so that a value read from a `T1`, `T2` or `T4` map can be passed to them in two and more dimensions.  There are
maps for the orders 0, 1, 2 and 4 only, and the order 0 is not an order of the tensor operations. -/
theorem C92_maps_partial (h : 2 ≤ d) (rank : Nat) :
    (∀ t : Tens d R, t.order.number = rank →
      tensorRows rank d = some t.rep.rows ∧ tensorCols rank d = some t.rep.cols) ∧
    (∀ r c, tensorRows rank d = some r → tensorCols rank d = some c →
      (∀ o, getRank d r c = some o ↔ o.number = rank) ∧ (rank = 0 ∨ rank = 1 ∨ rank = 2 ∨ rank = 4)) ∧
    ((tensorRows rank d).isSome ↔ (tensorCols rank d).isSome) := by
  have h1 : d ≠ 1 := by omega
  have h2 : d * d ≠ d := by nlinarith
  have h4 : d * d ≠ 1 := by nlinarith
  refine ⟨?_, ?_, ?_⟩
  · rintro (v | A | A) rfl <;> exact ⟨rfl, rfl⟩
  · intro r c hr hc
    rcases rank with _ | _ | _ | _ | _ | rank
    · cases hr; cases hc
      refine ⟨fun o => ?_, by omega⟩
      cases o <;> simp [getRank, Order.number, Ne.symm h1, Ne.symm h4]
    · cases hr; cases hc
      refine ⟨fun o => ?_, by omega⟩
      cases o <;> simp [getRank, Order.number]
    · cases hr; cases hc
      refine ⟨fun o => ?_, by omega⟩
      cases o <;> simp [getRank, Order.number, h1]
    · cases hr
    · cases hr; cases hc
      refine ⟨fun o => ?_, by omega⟩
      cases o <;> simp [getRank, Order.number, h2]
    · cases hr
  · rcases rank with _ | _ | _ | _ | _ | rank <;> rfl

example : tensorRows 4 3 = some 9 ∧ tensorCols 4 3 = some 9 ∧ getRank 3 9 9 = some .fourth := by decide

/-- C92: a size gets an order only if it is the size of a tensor of this order. -/
theorem C92_rank_sound (d r c : Nat) (o : Order) (h : getRank d r c = some o) :
    match o with
    | .first => r = d ∧ c = 1
    | .second => r = d ∧ c = d
    | .fourth => r = d * d ∧ c = d * d := by
  unfold getRank at h
  split at h
  · cases h; assumption
  · split at h
    · cases h; rename_i h1 h2; exact ⟨h2.1, h2.2.trans h2.1⟩
    · split at h
      · cases h; assumption
      · simp at h

example : (9 : Nat) = 3 * 3 ∧ (9 : Nat) = 3 * 3 := C92_rank_sound 3 9 9 .fourth (by decide)

/-! ### Push forward and pull back -/

theorem pushForward_eq [CommSemiring R] (junk junk' : (d : Nat) → T4 d R) (t : Tens d R) (F : T2 d R) (o : Order)
    (ho : getRank d t.rep.rows t.rep.cols = some o) :
    TensorDispatch.pushForward junk junk' t.rep (square F) = axisPush (junk d) (junk' d) o t.rep F := by
  have ho' : getRank (square F).rows t.rep.rows t.rep.cols = some o := ho
  unfold TensorDispatch.pushForward
  rw [dif_pos (show (square F).cols = (square F).rows from rfl)]
  simp only [ho']
  rfl

theorem pullBack_eq [CommSemiring R] (junk junk' : (d : Nat) → T4 d R) (inv : (d : Nat) → T2 d R → T2 d R)
    (t : Tens d R) (F : T2 d R) (o : Order) (ho : getRank d t.rep.rows t.rep.cols = some o) :
    pullBack junk junk' inv t.rep (square F) = axisPush (junk d) (junk' d) o t.rep (inv d F) := by
  have ho' : getRank (square F).rows t.rep.rows t.rep.cols = some o := ho
  unfold pullBack
  rw [dif_pos (show (square F).cols = (square F).rows from rfl)]
  simp only [ho']
  rfl

theorem axisPush_one [CommSemiring R] (junk junk' : T4 d R) (v : Fin d → R) (F : T2 d R) :
    axisPush junk junk' .first (column v) F = some (column (pushForward1 v F)) := by
  simp only [axisPush]
  rw [dif_pos (show (column v).rows = d ∧ (column v).cols = 1 from ⟨rfl, rfl⟩)]
  rfl

theorem axisPush_two [CommSemiring R] (junk junk' : T4 d R) (A F : T2 d R) :
    axisPush junk junk' .second (square A) F = some (square (pushForward2 A F)) := by
  simp only [axisPush]
  rw [dif_pos (show (square A).rows = d ∧ (square A).cols = d from ⟨rfl, rfl⟩)]
  rfl

theorem axisPush_four [CommSemiring R] (junk junk' : T4 d R) (A : T4 d R) (F : T2 d R) :
    axisPush junk junk' .fourth (square4 A) F = some (square4 (pushForward4 junk junk' A F)) := by
  simp only [axisPush]
  rw [dif_pos (show (square4 A).rows = d * d ∧ (square4 A).cols = d * d from ⟨rfl, rfl⟩)]
  rfl

/-- C92 as stated: `push_forward` applies `F` to each index of the tensor. -/
def C92_statement : Prop :=
  ∀ (d : Nat) (junk junk' : (d : Nat) → T4 d ℚ) (t : Tens d ℚ) (F : T2 d ℚ), 1 ≤ d →
    ∃ s, Pushed F t s ∧ TensorDispatch.pushForward junk junk' t.rep (square F) = some s.rep

/-- C92: from two dimensions on `push_forward` applies `F` to each index, for tensors of first, second and fourth order.

Full statement: `C92_statement`, all dimensions.  Missing: one dimension, see `C92_push_one` and `C92_false`. -/
theorem C92_push_partial [CommSemiring R] (h : 2 ≤ d) (junk junk' : (d : Nat) → T4 d R) (t : Tens d R) (F : T2 d R) :
    ∃ s, Pushed F t s ∧ TensorDispatch.pushForward junk junk' t.rep (square F) = some s.rep := by
  rw [pushForward_eq _ _ _ _ _ (C92_rank_partial h t)]
  have key := C45_push_index (R := R) (junk d) (junk' d)
  cases t with
  | one v => exact ⟨.one (pushForward1 v F), fun i => (key v 0 0 F i i i i).1, axisPush_one ..⟩
  | two A => exact ⟨.two (pushForward2 A F), fun i j => (key 0 A 0 F i j j j).2.1, axisPush_two ..⟩
  | four A =>
    exact ⟨.four (pushForward4 (junk d) (junk' d) A F), fun i j k l => (key 0 0 A F i j k l).2.2, axisPush_four ..⟩

example : ∃ s : Tens 3 ℚ, Pushed (2 : T2 3 ℚ) (.four 1) s ∧
    TensorDispatch.pushForward (fun _ => 0) (fun _ => 0) (Tens.four (1 : T4 3 ℚ)).rep (square (2 : T2 3 ℚ)) = some s.rep :=
  C92_push_partial (by decide) _ _ _ _

/-- The only entry of a tensor in one dimension. -/
def Tens.entry : Tens 1 R → R
  | .one v => v 0
  | .two A => A 0 0
  | .four A => A 0 0

/-- C92: in one dimension `push_forward` multiplies the only entry with `F` once, whatever the order of the tensor. -/
theorem C92_push_one [CommSemiring R] (junk junk' : (d : Nat) → T4 d R) (t : Tens 1 R) (F : T2 1 R) :
    TensorDispatch.pushForward junk junk' t.rep (square F) = some (Tens.one fun _ : Fin 1 => F 0 0 * Tens.entry t).rep := by
  rw [pushForward_eq _ _ _ _ _ (C92_rank_one t)]
  have key : ∀ v : Fin 1 → R, pushForward1 v F = fun _ => F 0 0 * v 0 := by
    intro v
    funext i
    fin_cases i
    simp [pushForward1, Matrix.mulVec, dotProduct]
  cases t with
  | one v => rw [show (Tens.one v).rep = column v from rfl, axisPush_one, key]; rfl
  | two A =>
    rw [show (Tens.two A).rep = column (fun i => A i 0) from ?_, axisPush_one, key]
    · rfl
    · simp only [Tens.rep, column, square]
      congr 1
      ext i j
      fin_cases i; fin_cases j; rfl
  | four A =>
    rw [show (Tens.four A).rep = column (fun i : Fin 1 => A i 0) from ?_, axisPush_one, key]
    · rfl
    · simp only [Tens.rep, column, square4]
      congr 1
      ext i j
      fin_cases i; fin_cases j; rfl

/-- So in one dimension the result for a tensor of second order is right exactly if `F t = F F t`, and for one of fourth
order exactly if `F t = F F F F t`. -/
theorem C92_one_exact [CommSemiring R] (junk junk' : (d : Nat) → T4 d R) (A : T2 1 R) (B : T4 1 R) (F : T2 1 R) :
    ((∃ s, Pushed F (.two A) s ∧ TensorDispatch.pushForward junk junk' (Tens.two A).rep (square F) = some s.rep) ↔
      F 0 0 * A 0 0 = F 0 0 * F 0 0 * A 0 0) ∧
    ((∃ s, Pushed F (.four B) s ∧ TensorDispatch.pushForward junk junk' (Tens.four B).rep (square F) = some s.rep) ↔
      F 0 0 * B 0 0 = F 0 0 * F 0 0 * F 0 0 * F 0 0 * B 0 0) := by
  have hone : ∀ x : R, ∀ s : T2 1 R, (Tens.one fun _ : Fin 1 => x).rep = (Tens.two s).rep ↔ x = s 0 0 := by
    intro x s
    simp only [Tens.rep, column, square, Mat.mk.injEq, heq_eq_eq, true_and]
    constructor
    · intro h; exact congrFun (congrFun h 0) 0
    · intro h; ext i j; fin_cases i; fin_cases j; exact h
  have hfour : ∀ x : R, ∀ s : T4 1 R, (Tens.one fun _ : Fin 1 => x).rep = (Tens.four s).rep ↔ x = get s 0 0 0 0 := by
    intro x s
    simp only [Tens.rep, column, square4, Mat.mk.injEq, heq_eq_eq, true_and]
    constructor
    · intro h; exact congrFun (congrFun h 0) 0
    · intro h; ext i j; fin_cases i; fin_cases j; exact h
  constructor
  · rw [C92_push_one]
    constructor
    · rintro ⟨s, hs, he⟩
      cases s with
      | two s =>
        have := (hone _ s).1 (Option.some.inj he)
        rw [show Tens.entry (.two A) = A 0 0 from rfl] at this
        rw [this]
        simpa using hs 0 0
      | one _ => exact hs.elim
      | four _ => exact hs.elim
    · intro h
      refine ⟨.two fun _ _ => F 0 0 * A 0 0, ?_, congrArg some ((hone _ _).2 rfl)⟩
      intro i j
      fin_cases i; fin_cases j
      simpa using h
  · rw [C92_push_one]
    constructor
    · rintro ⟨s, hs, he⟩
      cases s with
      | four s =>
        have := (hfour _ s).1 (Option.some.inj he)
        rw [show Tens.entry (.four B) = B 0 0 from rfl] at this
        rw [this, show B 0 0 = get B 0 0 0 0 from rfl]
        simpa using hs 0 0 0 0
      | one _ => exact hs.elim
      | two _ => exact hs.elim
    · intro h
      refine ⟨.four fun _ _ => F 0 0 * B 0 0, ?_, congrArg some ((hfour _ _).2 rfl)⟩
      intro i j k l
      fin_cases i; fin_cases j; fin_cases k; fin_cases l
      rw [show B 0 0 = get B 0 0 0 0 from rfl] at h
      show F 0 0 * get B 0 0 0 0 = _
      simpa using h

/-- Pushing forward a second-order tensor in one dimension multiplies with `F` once instead of twice. -/
theorem C92_false : ¬ C92_statement := by
  intro h
  have := ((C92_one_exact (fun _ => 0) (fun _ => 0) (Matrix.of fun _ _ => 1) 0 (Matrix.of fun _ _ => 2)).1).1
    (h 1 _ _ _ _ (le_refl _))
  simp only [Matrix.of_apply] at this
  norm_num at this

/-- C92: `pull_back` undoes `push_forward`, in all dimensions. -/
theorem C92_inverse [CommSemiring R] (hd : 1 ≤ d) (junk junk' : (d : Nat) → T4 d R)
    (inv : (d : Nat) → T2 d R → T2 d R) (t : Tens d R) (F : T2 d R) (h : inv d F * F = 1) (h' : F * inv d F = 1) :
    (∃ s : Tens d R, TensorDispatch.pushForward junk junk' t.rep (square F) = some s.rep ∧
      pullBack junk junk' inv s.rep (square F) = some t.rep) ∧
    ∃ s : Tens d R, pullBack junk junk' inv t.rep (square F) = some s.rep ∧
      TensorDispatch.pushForward junk junk' s.rep (square F) = some t.rep := by
  have key := C45_inverse (R := R) (junk d) (junk' d) (junk d) (junk' d)
  by_cases h1 : d = 1
  · subst h1
    have hcol : ∃ v : Fin 1 → R, t.rep = (Tens.one v).rep := by
      cases t with
      | one v => exact ⟨v, rfl⟩
      | two A =>
        refine ⟨fun i => A i 0, ?_⟩
        simp only [Tens.rep, column, square]
        congr 1
        ext i j
        fin_cases i; fin_cases j; rfl
      | four A =>
        refine ⟨fun i : Fin 1 => A i 0, ?_⟩
        simp only [Tens.rep, column, square4]
        congr 1
        ext i j
        fin_cases i; fin_cases j; rfl
    obtain ⟨v, hv⟩ := hcol
    rw [hv]
    refine ⟨⟨.one (pushForward1 v F), ?_, ?_⟩, .one (pushForward1 v (inv 1 F)), ?_, ?_⟩
    · rw [pushForward_eq _ _ _ _ _ (C92_rank_one _)]; exact axisPush_one ..
    · rw [pullBack_eq _ _ _ _ _ _ (C92_rank_one _)]
      exact (axisPush_one ..).trans (congrArg (fun x => some (column x)) (key v 0 0 F (inv 1) h h').1.1)
    · rw [pullBack_eq _ _ _ _ _ _ (C92_rank_one _)]; exact axisPush_one ..
    · rw [pushForward_eq _ _ _ _ _ (C92_rank_one _)]
      exact (axisPush_one ..).trans (congrArg (fun x => some (column x)) (key v 0 0 F (inv 1) h h').1.2)
  · have hd : 2 ≤ d := by omega
    cases t with
    | one v =>
      refine ⟨⟨.one (pushForward1 v F), ?_, ?_⟩, .one (pushForward1 v (inv d F)), ?_, ?_⟩
      · rw [pushForward_eq _ _ _ _ _ (C92_rank_partial hd _)]; exact axisPush_one ..
      · rw [pullBack_eq _ _ _ _ _ _ (C92_rank_partial hd _)]
        exact (axisPush_one ..).trans (congrArg (fun x => some (column x)) (key v 0 0 F (inv d) h h').1.1)
      · rw [pullBack_eq _ _ _ _ _ _ (C92_rank_partial hd _)]; exact axisPush_one ..
      · rw [pushForward_eq _ _ _ _ _ (C92_rank_partial hd _)]
        exact (axisPush_one ..).trans (congrArg (fun x => some (column x)) (key v 0 0 F (inv d) h h').1.2)
    | two A =>
      refine ⟨⟨.two (pushForward2 A F), ?_, ?_⟩, .two (pushForward2 A (inv d F)), ?_, ?_⟩
      · rw [pushForward_eq _ _ _ _ _ (C92_rank_partial hd _)]; exact axisPush_two ..
      · rw [pullBack_eq _ _ _ _ _ _ (C92_rank_partial hd _)]
        exact (axisPush_two ..).trans (congrArg (fun x => some (square x)) (key 0 A 0 F (inv d) h h').2.1.1)
      · rw [pullBack_eq _ _ _ _ _ _ (C92_rank_partial hd _)]; exact axisPush_two ..
      · rw [pushForward_eq _ _ _ _ _ (C92_rank_partial hd _)]
        exact (axisPush_two ..).trans (congrArg (fun x => some (square x)) (key 0 A 0 F (inv d) h h').2.1.2)
    | four A =>
      refine ⟨⟨.four (pushForward4 (junk d) (junk' d) A F), ?_, ?_⟩,
        .four (pushForward4 (junk d) (junk' d) A (inv d F)), ?_, ?_⟩
      · rw [pushForward_eq _ _ _ _ _ (C92_rank_partial hd _)]; exact axisPush_four ..
      · rw [pullBack_eq _ _ _ _ _ _ (C92_rank_partial hd _)]
        exact (axisPush_four ..).trans (congrArg (fun x => some (square4 x)) (key 0 0 A F (inv d) h h').2.2.1)
      · rw [pullBack_eq _ _ _ _ _ _ (C92_rank_partial hd _)]; exact axisPush_four ..
      · rw [pushForward_eq _ _ _ _ _ (C92_rank_partial hd _)]
        exact (axisPush_four ..).trans (congrArg (fun x => some (square4 x)) (key 0 0 A F (inv d) h h').2.2.2)

/-- The inverse of `2` in two dimensions. -/
example : ∃ s : Tens 2 ℚ,
    TensorDispatch.pushForward (fun _ => 0) (fun _ => 0) (Tens.two !![1, 2; 3, 4]).rep (square !![2, 0; 0, 2]) =
      some s.rep ∧
    pullBack (fun _ => 0) (fun _ => 0) (fun _ A => (1 / 4 : ℚ) • A) s.rep (square !![2, 0; 0, 2]) =
      some (Tens.two !![1, 2; 3, 4]).rep := by
  refine (C92_inverse (by decide) _ _ _ _ _ ?_ ?_).1 <;>
    (ext i j; fin_cases i <;> fin_cases j <;> norm_num [Matrix.mul_apply, Fin.sum_univ_succ])

/-! ### Contractions -/

theorem dot_two_four [CommSemiring R] (h : 2 ≤ d) (A : T2 d R) (B : T4 d R) :
    dot d (Tens.two A).rep (Tens.four B).rep = some (.matrix (square4 (dot24 A B))) ∧
    dot d (Tens.four B).rep (Tens.two A).rep = some (.matrix (square4 (dot42 B A))) := by
  have h2 := C92_rank_partial h (Tens.two A)
  have h4 := C92_rank_partial h (Tens.four B)
  constructor <;> unfold dot <;> simp only [h2, h4, Tens.order]
  · rw [dif_pos (show ((Tens.two A).rep.rows = d ∧ (Tens.two A).rep.cols = d) ∧
      ((Tens.four B).rep.rows = d * d ∧ (Tens.four B).rep.cols = d * d) from ⟨⟨rfl, rfl⟩, rfl, rfl⟩)]
    rfl
  · rw [dif_pos (show ((Tens.four B).rep.rows = d * d ∧ (Tens.four B).rep.cols = d * d) ∧
      ((Tens.two A).rep.rows = d ∧ (Tens.two A).rep.cols = d) from ⟨⟨rfl, rfl⟩, rfl, rfl⟩)]
    rfl

/-- C92 as stated for `dot`: two tensors whose contraction is of first, second or fourth order can be contracted, and
the result is the contraction. -/
def C92_dot_statement : Prop :=
  ∀ (d : Nat) (A B : Tens d ℚ), 1 ≤ d → (∃ C, Contracted A B C) →
    ∃ C, Contracted A B C ∧ dot d A.rep B.rep = some (.matrix C.rep)

/-- C92: from two dimensions on, a call of `dot` that compiles returns the contraction of the last index of the first
tensor with the first index of the second, and it compiles exactly if one tensor is of second and the other of fourth
order.

Full statement: `C92_dot_statement`.  Missing: two tensors of second order, and a second- and a first-order tensor, for
which the call does not compile, and one dimension, see `C92_dot_one`. -/
theorem C92_dot_partial [CommSemiring R] (h : 2 ≤ d) (A B : Tens d R) :
    (∀ v, dot d A.rep B.rep = some v → ∃ C, Contracted A B C ∧ v = .matrix C.rep) ∧
    ((dot d A.rep B.rep).isSome ↔
      (A.order = .second ∧ B.order = .fourth) ∨ (A.order = .fourth ∧ B.order = .second)) := by
  have ha := C92_rank_partial h A
  have hb := C92_rank_partial h B
  cases A with
  | one a => cases B <;> simp [dot, ha, Tens.order]
  | two A =>
    cases B with
    | four B =>
      rw [(dot_two_four h A B).1]
      refine ⟨fun v hv => ⟨.four (dot24 A B), fun i j k l => (C43_dot A B i j k l).1, (Option.some.inj hv).symm⟩, ?_⟩
      simp [Tens.order]
    | _ => simp [dot, ha, hb, Tens.order]
  | four C =>
    cases B with
    | two A =>
      rw [(dot_two_four h A C).2]
      refine ⟨fun v hv => ⟨.four (dot42 C A), fun i j k l => (C43_dot A C i j k l).2, (Option.some.inj hv).symm⟩, ?_⟩
      simp [Tens.order]
    | _ => simp [dot, ha, hb, Tens.order]

example : ∃ C, Contracted (.two !![1, 2; 3, (4 : ℚ)]) (.four (1 : T4 2 ℚ)) C ∧
    dot 2 (Tens.two !![1, 2; 3, (4 : ℚ)]).rep (Tens.four (1 : T4 2 ℚ)).rep = some (.matrix C.rep) := by
  obtain ⟨h1, h2⟩ := C92_dot_partial (le_refl 2) (.two !![1, 2; 3, (4 : ℚ)]) (.four (1 : T4 2 ℚ))
  obtain ⟨v, hv⟩ := Option.isSome_iff_exists.1 (h2.2 (Or.inl ⟨rfl, rfl⟩))
  obtain ⟨C, hC, rfl⟩ := h1 v hv
  exact ⟨C, hC, hv⟩

/-- The product of two second-order tensors does not compile. -/
theorem C92_dot_false : ¬ C92_dot_statement := by
  intro h
  obtain ⟨C, _, hC⟩ := h 2 (.two 1) (.two 1) (by decide) ⟨.two (1 * 1), fun i j => Matrix.mul_apply⟩
  have := ((C92_dot_partial (le_refl 2) (.two (1 : T2 2 ℚ)) (.two 1)).2.1 (by rw [hC]; rfl))
  simp [Tens.order] at this

/-- C92: in one dimension neither `dot` nor `ddot` compiles, for tensors of any order. -/
theorem C92_dot_one [CommSemiring R] (A B : Tens 1 R) : dot 1 A.rep B.rep = none ∧ ddot 1 A.rep B.rep = none := by
  have ha := C92_rank_one A
  have hb := C92_rank_one B
  constructor
  · unfold dot; simp only [ha, hb]
  · unfold ddot; simp only [ha, hb]

/-- C92 as stated for `ddot`. -/
def C92_ddot_statement : Prop :=
  ∀ (d : Nat) (A B : Tens d ℚ), 1 ≤ d → (∃ v, DoublyContracted A B v) →
    ∃ v, DoublyContracted A B v ∧ ddot d A.rep B.rep = some v

theorem ddot_eq [CommSemiring R] (h : 2 ≤ d) (A B : T2 d R) (A' B' : T4 d R) :
    ddot d (Tens.two A).rep (Tens.two B).rep = some (.number (ddot22 A B)) ∧
    ddot d (Tens.four A').rep (Tens.four B').rep = some (.matrix (square4 (ddot44 A' B'))) := by
  have h2 := C92_rank_partial h (Tens.two A)
  have h2' := C92_rank_partial h (Tens.two B)
  have h4 := C92_rank_partial h (Tens.four A')
  have h4' := C92_rank_partial h (Tens.four B')
  constructor <;> unfold ddot
  · simp only [h2, h2', Tens.order]
    rw [dif_pos (show ((Tens.two A).rep.rows = d ∧ (Tens.two A).rep.cols = d) ∧
      ((Tens.two B).rep.rows = d ∧ (Tens.two B).rep.cols = d) from ⟨⟨rfl, rfl⟩, rfl, rfl⟩)]
    rfl
  · simp only [h4, h4', Tens.order]
    rw [dif_pos (show ((Tens.four A').rep.rows = d * d ∧ (Tens.four A').rep.cols = d * d) ∧
      ((Tens.four B').rep.rows = d * d ∧ (Tens.four B').rep.cols = d * d) from ⟨⟨rfl, rfl⟩, rfl, rfl⟩)]
    rfl

/-- C92: from two dimensions on, a call of `ddot` that compiles returns the double contraction, and it compiles exactly
for two tensors of second order and for two of fourth order.

Full statement: `C92_ddot_statement`.  Missing: a fourth- and a second-order tensor, for which the call does not compile
(`tensmult` computes it, see `C92_tensmult`), and one dimension, see `C92_dot_one`. -/
theorem C92_ddot_partial [CommSemiring R] (h : 2 ≤ d) (A B : Tens d R) :
    (∀ v, ddot d A.rep B.rep = some v → DoublyContracted A B v) ∧
    ((ddot d A.rep B.rep).isSome ↔
      (A.order = .second ∧ B.order = .second) ∨ (A.order = .fourth ∧ B.order = .fourth)) := by
  have ha := C92_rank_partial h A
  have hb := C92_rank_partial h B
  cases A with
  | one a => cases B <;> simp [ddot, ha, Tens.order]
  | two A =>
    cases B with
    | two B =>
      rw [(ddot_eq h A B 0 0).1]
      refine ⟨fun v hv => ?_, by simp [Tens.order]⟩
      obtain rfl := Option.some.inj hv
      exact (C43_ddot (0 : T4 d R) 0 A B).2.2
    | _ => simp [ddot, ha, hb, Tens.order]
  | four A =>
    cases B with
    | four B =>
      rw [(ddot_eq h 0 0 A B).2]
      refine ⟨fun v hv => ?_, by simp [Tens.order]⟩
      obtain rfl := Option.some.inj hv
      exact ⟨_, rfl, (C43_ddot A B (0 : T2 d R) 0).1⟩
    | _ => simp [ddot, ha, hb, Tens.order]

example : ∃ v, DoublyContracted (.two !![1, 2; 3, (4 : ℚ)]) (.two 1) v ∧
    ddot 2 (Tens.two !![1, 2; 3, (4 : ℚ)]).rep (Tens.two (1 : T2 2 ℚ)).rep = some v := by
  obtain ⟨h1, h2⟩ := C92_ddot_partial (le_refl 2) (.two !![1, 2; 3, (4 : ℚ)]) (.two (1 : T2 2 ℚ))
  obtain ⟨v, hv⟩ := Option.isSome_iff_exists.1 (h2.2 (Or.inl ⟨rfl, rfl⟩))
  exact ⟨v, h1 v hv, hv⟩

/-- The double contraction of a fourth- and a second-order tensor does not compile. -/
theorem C92_ddot_false : ¬ C92_ddot_statement := by
  intro h
  obtain ⟨v, _, hv⟩ := h 2 (.four 1) (.two 1) (by decide)
    ⟨.matrix (square (Matrix.of fun i j => ∑ k, ∑ l, get (1 : T4 2 ℚ) i j k l * (1 : T2 2 ℚ) k l)), _, rfl,
      fun i j => rfl⟩
  have := ((C92_ddot_partial (le_refl 2) (.four (1 : T4 2 ℚ)) (.two 1)).2.1 (by rw [hv]; rfl))
  simp [Tens.order] at this

/-! ### `tensmult` -/

/-- C92: in all dimensions `tensmult` of a second- and a first-order tensor is `A_ia b_a`, and of a fourth- and a
second-order tensor `A_ijkl B_kl`. -/
theorem C92_tensmult [CommSemiring R] (hd : 1 ≤ d) (A : T2 d R) (b : Fin d → R) (A' : T4 d R) (B : T2 d R) :
    (∃ c, Contracted (.two A) (.one b) (.one c) ∧
      TensorDispatch.tensmult (Tens.two A).rep (Tens.one b).rep = some (Tens.one c).rep) ∧
    ∃ C : T2 d R, DoublyContracted (.four A') (.two B) (.matrix (Tens.two C).rep) ∧
      TensorDispatch.tensmult (Tens.four A').rep (Tens.two B).rep = some (Tens.two C).rep := by
  have mul1 : ∀ (A : T2 d R) (b : Fin d → R), multiply d .first (square A) (column b) =
      some (column (tensmult1 A b)) := by
    intro A b
    simp only [multiply]
    rw [dif_pos (show ((square A).rows = d ∧ (square A).cols = d) ∧
      ((column b).rows = d ∧ (column b).cols = 1) from ⟨⟨rfl, rfl⟩, rfl, rfl⟩)]
    rfl
  have mul2 : ∀ (A : T4 d R) (B : T2 d R), multiply d .second (square4 A) (square B) =
      some (square (Tensor.tensmult A B)) := by
    intro A B
    simp only [multiply]
    rw [dif_pos (show ((square4 A).rows = d * d ∧ (square4 A).cols = d * d) ∧
      ((square B).rows = d ∧ (square B).cols = d) from ⟨⟨rfl, rfl⟩, rfl, rfl⟩)]
    rfl
  by_cases h1 : d = 1
  · subst h1
    have hA' : (Tens.four A').rep = square (Matrix.of fun i j : Fin 1 => A' i j) := rfl
    have hB : (Tens.two B).rep = column (fun i => B i 0) := by
      simp only [Tens.rep, column, square]
      congr 1
      ext i j
      fin_cases i; fin_cases j; rfl
    have run : ∀ (A : T2 1 R) (b : Fin 1 → R),
        TensorDispatch.tensmult (square A) (column b) = some (column (tensmult1 A b)) := by
      intro A b
      exact mul1 A b
    refine ⟨⟨tensmult1 A b, fun i => rfl, run A b⟩,
      Matrix.of fun i j => ∑ k, ∑ l, get A' i j k l * B k l, ⟨_, rfl, fun i j => rfl⟩, ?_⟩
    rw [hA', hB, run]
    congr 1
    simp only [Tens.rep, column, square]
    congr 1
    ext i j
    fin_cases i; fin_cases j
    simp [tensmult1, Matrix.mulVec, dotProduct]
    rfl
  · have hd2 : 2 ≤ d := by omega
    constructor
    · refine ⟨tensmult1 A b, fun i => rfl, ?_⟩
      have r1 : getRank (Tens.one b).rep.rows (Tens.one b).rep.rows (Tens.one b).rep.cols = some .first :=
        C92_rank_partial hd2 (Tens.one b)
      have r2 : getRank (Tens.one b).rep.rows (Tens.two A).rep.rows (Tens.two A).rep.cols = some .second :=
        C92_rank_partial hd2 (Tens.two A)
      unfold TensorDispatch.tensmult
      simp only [r1, r2]
      rw [if_pos (Or.inl (show isDouble .second .first = true from rfl))]
      exact mul1 A b
    · refine ⟨Tensor.tensmult A' B, ⟨_, rfl, fun i j => C43_tensmult A' B i j⟩, ?_⟩
      have r1 : getRank (Tens.two B).rep.rows (Tens.two B).rep.rows (Tens.two B).rep.cols = some .second :=
        C92_rank_partial hd2 (Tens.two B)
      have r2 : getRank (Tens.two B).rep.rows (Tens.four A').rep.rows (Tens.four A').rep.cols = some .fourth :=
        C92_rank_partial hd2 (Tens.four A')
      unfold TensorDispatch.tensmult
      simp only [r1, r2]
      rw [if_pos (Or.inl (show isDouble .fourth .second = true from rfl))]
      exact mul2 A' B

example : ∃ C : T2 1 ℚ, DoublyContracted (Tens.four (d := 1) (Matrix.of fun _ _ => (3 : ℚ)))
    (Tens.two (d := 1) (Matrix.of fun _ _ => 2)) (.matrix (Tens.two C).rep) ∧
    TensorDispatch.tensmult (Tens.four (d := 1) (Matrix.of fun _ _ => (3 : ℚ))).rep
      (Tens.two (d := 1) (Matrix.of fun _ _ => 2)).rep = some (Tens.two C).rep :=
  (C92_tensmult (le_refl 1) 0 0 _ _).2

end Verif.Props
