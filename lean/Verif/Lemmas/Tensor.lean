import Verif.Model.Tensor
import Mathlib.Algebra.BigOperators.Fin
import Mathlib.Algebra.BigOperators.Ring.Finset
import Mathlib.Algebra.Field.Basic
import Mathlib.Logic.Equiv.Fin.Basic
import Mathlib.Data.Fintype.BigOperators
import Mathlib.Tactic.Ring
/-
Loops over index tuples and the storage of fourth-order tensors.
-/
namespace Verif.Tensor

theorem pos_val {d : Nat} (i j : Fin d) : (pos i j).val = i + j * d := by
  have hd : 0 < d := i.pos
  have h : (if d * d = 1 then d * d else d * d / d) = d := by
    split
    · have : d = 1 := Nat.eq_one_of_mul_eq_one_left (by assumption)
      simp [this]
    · exact Nat.mul_div_cancel _ hd
  show i.val * (if 1 = 1 then 1 else 1 / d) + j.val * (if d * d = 1 then d * d else d * d / d) = _
  rw [h]; simp

/-- Index pairs and positions correspond one to one. -/
def posEquiv (d : Nat) : Fin d × Fin d ≃ Fin (d * d) := (Equiv.prodComm _ _).trans finProdFinEquiv

theorem posEquiv_apply {d : Nat} (i j : Fin d) : posEquiv d (i, j) = pos i j := by
  apply Fin.ext
  rw [pos_val]
  simp [posEquiv, finProdFinEquiv, Nat.mul_comm]

theorem pos_inj {d : Nat} {i j k l : Fin d} : pos i j = pos k l ↔ i = k ∧ j = l := by
  rw [← posEquiv_apply, ← posEquiv_apply, (posEquiv d).injective.eq_iff, Prod.mk.injEq]

theorem pos_surj {d : Nat} (p : Fin (d * d)) : ∃ i j, p = pos i j :=
  ⟨((posEquiv d).symm p).1, ((posEquiv d).symm p).2, by rw [← posEquiv_apply]; simp⟩

theorem sum_pos {d : Nat} {R : Type} [AddCommMonoid R] (f : Fin (d * d) → R) :
    ∑ p, f p = ∑ i, ∑ j, f (pos i j) := by
  rw [← (posEquiv d).sum_comp f, Fintype.sum_prod_type]
  simp only [posEquiv_apply]

theorem T4.ext' {d : Nat} {R : Type} {A B : T4 d R} (h : ∀ i j k l, get A i j k l = get B i j k l) : A = B := by
  ext p q
  obtain ⟨i, j, rfl⟩ := pos_surj p
  obtain ⟨k, l, rfl⟩ := pos_surj q
  exact h i j k l

/-! ### Loops -/

theorem mem_quads {d : Nat} (q : Fin d × Fin d × Fin d × Fin d) : q ∈ quads d := by
  obtain ⟨i, j, k, l⟩ := q
  simp [quads]

theorem foldl_write {ι κ R : Type} [DecidableEq κ] (l : List ι) (p : ι → κ) (v : ι → R) (f : κ → R)
    (hv : ∀ s t, p s = p t → v s = v t) (t : ι) (h : t ∈ l ∨ f (p t) = v t) :
    (l.foldl (fun f s => fun x => if x = p s then v s else f x) f) (p t) = v t := by
  induction l generalizing f with
  | nil =>
    rcases h with h | h
    · simp at h
    · exact h
  | cons s l ih =>
    rw [List.foldl_cons]
    apply ih
    by_cases hp : p t = p s
    · right; simp [hp, hv t s hp]
    · rcases h with h | h
      · rcases List.mem_cons.1 h with rfl | h
        · exact absurd rfl hp
        · exact Or.inl h
      · right; simp [hp, h]

theorem foldl_add {ι κ R : Type} [DecidableEq κ] [AddCommMonoid R] (l : List ι) (p : ι → κ) (v : ι → R)
    (f : κ → R) (x : κ) :
    (l.foldl (fun f s => fun x => if x = p s then f x + v s else f x) f) x
      = f x + (l.map (fun s => if x = p s then v s else 0)).sum := by
  induction l generalizing f with
  | nil => simp
  | cons s l ih =>
    rw [List.foldl_cons, ih, List.map_cons, List.sum_cons]
    by_cases h : x = p s
    · simp [h, add_assoc]
    · simp [h]

theorem sum_flatMap' {ι κ R : Type} [AddCommMonoid R] (l : List ι) (g : ι → List κ) (f : κ → R) :
    ((l.flatMap g).map f).sum = (l.map (fun i => ((g i).map f).sum)).sum := by
  induction l with
  | nil => simp
  | cons i l ih => simp [ih]

theorem sum_finRange {d : Nat} {R : Type} [AddCommMonoid R] (f : Fin d → R) :
    ((List.finRange d).map f).sum = ∑ i, f i := by
  rw [Fin.sum_univ_def]

theorem sum_quads {d : Nat} {R : Type} [AddCommMonoid R] (f : Fin d × Fin d × Fin d × Fin d → R) :
    ((quads d).map f).sum = ∑ i, ∑ j, ∑ k, ∑ l, f (i, j, k, l) := by
  unfold quads
  simp only [sum_flatMap', List.map_map, Function.comp_def, sum_finRange]

theorem sum_quints {d : Nat} {R : Type} [AddCommMonoid R] (f : Fin d × Fin d × Fin d × Fin d × Fin d → R) :
    ((quints d).map f).sum = ∑ i, ∑ j, ∑ k, ∑ l, ∑ m, f (i, j, k, l, m) := by
  unfold quints
  simp only [sum_flatMap', List.map_map, Function.comp_def, sum_finRange]

/-- The loops which write every entry. -/
theorem get_write {d : Nat} {R : Type} (junk : T4 d R) (v : Fin d → Fin d → Fin d → Fin d → R) (i j k l : Fin d) :
    get ((quads d).foldl (fun t q => set t q.1 q.2.1 q.2.2.1 q.2.2.2 (v q.1 q.2.1 q.2.2.1 q.2.2.2)) junk) i j k l
      = v i j k l := by
  let F : List (Fin d × Fin d × Fin d × Fin d) → (Fin (d * d) × Fin (d * d) → R) → (Fin (d * d) × Fin (d * d) → R) :=
    fun l f => l.foldl (fun f s => fun x => if x = (pos s.1 s.2.1, pos s.2.2.1 s.2.2.2) then
      v s.1 s.2.1 s.2.2.1 s.2.2.2 else f x) f
  have h1 : ∀ (l : List (Fin d × Fin d × Fin d × Fin d)) (t : T4 d R) (r c),
      (l.foldl (fun t q => set t q.1 q.2.1 q.2.2.1 q.2.2.2 (v q.1 q.2.1 q.2.2.1 q.2.2.2)) t) r c
        = F l (fun x => t x.1 x.2) (r, c) := by
    intro l
    induction l with
    | nil => intros; rfl
    | cons s l ih =>
      intro t r c
      rw [List.foldl_cons, ih]
      show F l _ _ = F l _ _
      congr 1
      funext x
      simp only [set, Matrix.of_apply, Prod.ext_iff]
  unfold get
  rw [h1]
  refine foldl_write (quads d) (fun s => (pos s.1 s.2.1, pos s.2.2.1 s.2.2.2))
    (fun s => v s.1 s.2.1 s.2.2.1 s.2.2.2) _ ?_ (i, j, k, l) (Or.inl (mem_quads _))
  intro s t h
  rw [Prod.mk.injEq, pos_inj, pos_inj] at h
  obtain ⟨⟨h1, h2⟩, h3, h4⟩ := h
  simp only [h1, h2, h3, h4]

theorem addTo_eq {d : Nat} {R : Type} [Add R] (t : T4 d R) (i j k l : Fin d) (v : R) (r c : Fin (d * d)) :
    addTo t i j k l v r c = if (r, c) = (pos i j, pos k l) then t r c + v else t r c := by
  unfold addTo set get
  rw [Matrix.of_apply]
  by_cases h : r = pos i j ∧ c = pos k l
  · rw [if_pos h, if_pos (by rw [h.1, h.2]), h.1, h.2]
  · rw [if_neg h, if_neg (by rw [Prod.mk.injEq]; exact h)]

theorem addTo_foldl {d : Nat} {R ι : Type} [AddCommMonoid R] (l : List ι) (p : ι → Fin d × Fin d × Fin d × Fin d)
    (v : ι → R) (t : T4 d R) (i j k m : Fin d) :
    get (l.foldl (fun t s => addTo t (p s).1 (p s).2.1 (p s).2.2.1 (p s).2.2.2 (v s)) t) i j k m
      = get t i j k m + (l.map (fun s => if (i, j, k, m) = p s then v s else 0)).sum := by
  induction l generalizing t with
  | nil => simp
  | cons s l ih =>
    rw [List.foldl_cons, ih, List.map_cons, List.sum_cons, ← add_assoc]
    congr 1
    unfold get
    rw [addTo_eq]
    have e : ((pos i j, pos k m) = (pos (p s).1 (p s).2.1, pos (p s).2.2.1 (p s).2.2.2)) ↔
        ((i = (p s).1 ∧ j = (p s).2.1) ∧ k = (p s).2.2.1 ∧ m = (p s).2.2.2) := by
      rw [Prod.mk.injEq, pos_inj, pos_inj]
    by_cases h : (i, j, k, m) = p s
    · have : (i = (p s).1 ∧ j = (p s).2.1) ∧ k = (p s).2.2.1 ∧ m = (p s).2.2.2 := by rw [← h]; simp
      rw [if_pos (e.2 this), if_pos h]
    · have : ¬ ((i = (p s).1 ∧ j = (p s).2.1) ∧ k = (p s).2.2.1 ∧ m = (p s).2.2.2) := by
        rintro ⟨⟨h1, h2⟩, h3, h4⟩
        exact h (by rw [h1, h2, h3, h4])
      rw [if_neg (fun hh => this (e.1 hh)), if_neg h, add_zero]

/-! ### The Kronecker structure of `outer_under` -/

theorem get_outer {d : Nat} {R : Type} [Mul R] (junk : T4 d R) (A B : T2 d R) (i j k l : Fin d) :
    get (outer junk A B) i j k l = A i j * B k l := get_write junk (fun i j k l => A i j * B k l) i j k l

theorem get_outerUnder {d : Nat} {R : Type} [Mul R] (junk : T4 d R) (A B : T2 d R) (i j k l : Fin d) :
    get (outerUnder junk A B) i j k l = A i k * B j l := get_write junk (fun i j k l => A i k * B j l) i j k l

theorem get_outerOver {d : Nat} {R : Type} [Mul R] (junk : T4 d R) (A B : T2 d R) (i j k l : Fin d) :
    get (outerOver junk A B) i j k l = A i l * B j k := get_write junk (fun i j k l => A i l * B j k) i j k l

theorem get_mul {d : Nat} {R : Type} [NonUnitalNonAssocSemiring R] (A B : T4 d R) (i j k l : Fin d) :
    get (A * B) i j k l = ∑ a, ∑ b, get A i j a b * get B a b k l := by
  unfold get
  rw [Matrix.mul_apply, sum_pos]

theorem outerUnder_mul {d : Nat} {R : Type} [CommSemiring R] (j1 j2 j3 : T4 d R) (A B C D : T2 d R) :
    outerUnder j1 A B * outerUnder j2 C D = outerUnder j3 (A * C) (B * D) := by
  apply T4.ext'
  intro i j k l
  rw [get_mul, get_outerUnder, Matrix.mul_apply, Matrix.mul_apply, Finset.sum_mul_sum]
  refine Finset.sum_congr rfl fun a _ => Finset.sum_congr rfl fun b _ => ?_
  rw [get_outerUnder, get_outerUnder]
  ring

theorem outerUnder_one {d : Nat} {R : Type} [CommSemiring R] (j1 : T4 d R) : outerUnder j1 1 1 = (1 : T4 d R) := by
  apply T4.ext'
  intro i j k l
  rw [get_outerUnder]
  unfold get
  simp only [Matrix.one_apply, pos_inj]
  by_cases h : i = k <;> by_cases h' : j = l <;> simp [h, h']

end Verif.Tensor
