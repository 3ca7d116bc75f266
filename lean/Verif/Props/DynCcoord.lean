import Verif.Model.DynCcoord
import Mathlib.Data.List.Basic
import Mathlib.Data.List.Zip
import Mathlib.Algebra.Order.Ring.Int
/-
C56: coordinate arithmetic.
-/
namespace Verif.Props
open Verif.DynCcoord

/-- A coordinate as the constructors make it: `M` components stored, of which `dim` are used. -/
def Wf (M : Nat) (c : Dyn) : Prop := c.arr.length = M ∧ 0 ≤ c.dim ∧ c.dim ≤ M

/-- The used components. -/
def used (c : Dyn) : List Int := c.arr.take c.dim.toNat

instance (M : Nat) (c : Dyn) : Decidable (Wf M c) := by unfold Wf; infer_instance

theorem Wf.length {M : Nat} {c : Dyn} (h : Wf M c) : ((used c).length : Int) = c.dim := by
  obtain ⟨h1, h2, h3⟩ := h
  rw [used, List.length_take]
  omega

/-! ### Helpers -/

theorem forBoth_ok (f : Int → Int → Res Int) (g : Int → Int → Int) (a b : List Int) (i n : Nat)
    (ha : i + n ≤ a.length) (hb : i + n ≤ b.length)
    (hf : ∀ k (h : k < n), f (a[i + k]'(by omega)) (b[i + k]'(by omega))
      = .ok (g (a[i + k]'(by omega)) (b[i + k]'(by omega)))) :
    forBoth f a b i n = .ok (List.zipWith g ((a.drop i).take n) ((b.drop i).take n)) := by
  induction n generalizing i with
  | zero => simp [forBoth]
  | succ n ih =>
    have h0 := hf 0 (by omega)
    simp only [Nat.add_zero] at h0
    have h1 := ih (i + 1) (by omega) (by omega) (fun k hk => by
      have := hf (k + 1) (by omega)
      simpa only [show i + 1 + k = i + (k + 1) by omega] using this)
    rw [forBoth, at!_eq_ok (by omega : i < a.length), at!_eq_ok (by omega : i < b.length)]
    simp only [Res.ok_bind, h0, h1, Res.pure_eq]
    have e1 : a.drop i = a[i] :: a.drop (i + 1) := List.drop_eq_getElem_cons (by omega)
    have e2 : b.drop i = b[i] :: b.drop (i + 1) := List.drop_eq_getElem_cons (by omega)
    rw [e1, e2, List.take_succ_cons, List.take_succ_cons, List.zipWith_cons_cons]

theorem forBoth_ub (f : Int → Int → Res Int) (a b : List Int) (i n : Nat)
    (ha : i + n ≤ a.length) (hb : i + n ≤ b.length) (hf : ∀ x y, f x y = .ub ∨ ∃ z, f x y = .ok z)
    (k : Nat) (hk : k < n) (hk' : f (a[i + k]'(by omega)) (b[i + k]'(by omega)) = .ub) :
    forBoth f a b i n = .ub := by
  induction n generalizing i k with
  | zero => omega
  | succ n ih =>
    rw [forBoth, at!_eq_ok (by omega : i < a.length), at!_eq_ok (by omega : i < b.length)]
    simp only [Res.ok_bind]
    cases k with
    | zero =>
      simp only [Nat.add_zero] at hk'
      rw [hk']; rfl
    | succ k =>
      rcases hf a[i] b[i] with h | ⟨z, h⟩
      · rw [h]; rfl
      · have := ih (i + 1) (by omega) (by omega) k (by omega) (by
          simpa only [show i + 1 + k = i + (k + 1) by omega] using hk')
        rw [h, Res.ok_bind, this]; rfl

theorem fresh_ok {M : Nat} {d : Int} {l : List Int} (h : (l.length : Int) = d) (hM : d ≤ M) :
    ∃ c, fresh M d l = .ok c ∧ Wf M c ∧ used c = l := by
  refine ⟨⟨d, l ++ List.replicate (M - l.length) 0⟩, ?_, ⟨?_, ?_, hM⟩, ?_⟩
  · rw [fresh, if_neg (by omega)]
  · simp; omega
  · simp only; omega
  · have : d.toNat = l.length := by omega
    simp [used, this]

/-- The pattern of the three operations which check the dimension. -/
theorem op_ok {M : Nat} {a b : Dyn} (ha : Wf M a) (hb : Wf M b) (hd : a.dim = b.dim)
    (f : Int → Int → Res Int) (g : Int → Int → Int)
    (hf : ∀ x y, y ∈ used b → f x y = .ok (g x y)) :
    ∃ c, (forBoth f a.arr b.arr 0 a.dim.toNat >>= fresh M a.dim) = .ok c ∧ Wf M c ∧ c.dim = a.dim ∧
      used c = List.zipWith g (used a) (used b) := by
  have h := forBoth_ok f g a.arr b.arr 0 a.dim.toNat (by have := ha.1; have := ha.2; omega)
    (by have := hb.1; have := hb.2; omega) (by
      intro k hk
      refine hf _ _ ?_
      have hlen : k < (used b).length := by have := hb.length; omega
      have : (used b)[k] = b.arr[0 + k]'(by have := hb.1; have := hb.2; omega) := by simp [used]
      rw [← this]
      exact List.getElem_mem hlen)
  obtain ⟨c, h1, h2, h3⟩ := fresh_ok (M := M) (d := a.dim)
    (l := List.zipWith g ((a.arr.drop 0).take a.dim.toNat) ((b.arr.drop 0).take a.dim.toNat)) (by
      have := ha.1; have := ha.2; have := hb.1; have := hb.2
      simp; omega) ha.2.2
  refine ⟨c, by rw [h, Res.ok_bind, h1], h2, ?_, ?_⟩
  · have := h2.length
    have h4 := ha.length
    have h5 := hb.length
    rw [h3] at this
    rw [← this, List.length_zipWith]
    simp only [List.drop_zero]
    rw [← used] at *
    rw [hd, ← used]
    omega
  · rw [h3, List.drop_zero, List.drop_zero]
    unfold used
    rw [hd]

/-! ### C56 -/

/-- C56: a list of at most `M` components makes a coordinate with exactly these components; a longer one is
rejected. -/
theorem C56_construct (M : Nat) (l : List Int) :
    (l.length ≤ M → ∃ c, ofList M l = .ok c ∧ Wf M c ∧ used c = l ∧ toVec c = .ok l) ∧
    (M < l.length → ofList M l = .throw .runtimeError) := by
  constructor
  · intro h
    have hu : used ⟨l.length, l ++ List.replicate (M - l.length) 0⟩ = l := by simp [used]
    refine ⟨⟨l.length, l ++ List.replicate (M - l.length) 0⟩, ?_, ⟨?_, ?_, ?_⟩, hu, ?_⟩
    · rw [ofList, if_neg (by omega)]
    · simp; omega
    · simp
    · simp only; exact_mod_cast h
    · rw [toVec, if_neg, ← used, hu]
      simp
  · intro h
    rw [ofList, if_pos h]

example : ∃ c, ofList 3 [4, -5] = .ok c ∧ used c = [4, -5] := by
  obtain ⟨c, h, _, h', _⟩ := (C56_construct 3 [4, -5]).1 (by decide)
  exact ⟨c, h, h'⟩

/-- C56: two coordinates are equal exactly if dimension and used components agree, whatever the unused
components hold. -/
theorem C56_eq {M : Nat} {a b : Dyn} (ha : Wf M a) (hb : Wf M b) :
    eq a b = .ok (decide (a.dim = b.dim ∧ used a = used b)) := by
  have ha' := ha.length
  have hb' := hb.length
  have h := forBoth_ok (fun x y => .ok (if x = y then 1 else 0)) (fun x y => if x = y then 1 else 0)
    a.arr b.arr 0 a.dim.toNat (by have := ha.1; have := ha.2; omega)
    (by have := hb.1; have := ha.2; omega) (fun _ _ => rfl)
  rw [eq, h]
  simp only [Res.ok_bind, Res.pure_eq, List.drop_zero]
  congr 1
  rw [← used, Bool.eq_iff_iff]
  by_cases hd : a.dim = b.dim
  · have hl : (used a).length = (used b).length := by omega
    rw [hd, ← used]
    simp only [decide_true, Bool.true_and, true_and, decide_eq_true_eq, List.all_eq_true, beq_iff_eq]
    constructor
    · intro h
      refine List.ext_getElem hl ?_
      intro i h1 h2
      have := h ((List.zipWith (fun x y : Int => if x = y then (1 : Int) else 0) (used a) (used b))[i]'(by simp; omega))
        (List.getElem_mem _)
      rw [List.getElem_zipWith] at this
      by_contra hc
      rw [if_neg hc] at this
      cases this
    · intro h x hx
      rw [h] at hx
      obtain ⟨i, hi, rfl⟩ := List.getElem_of_mem hx
      simp
  · simp [hd]

example : eq ⟨2, [1, 2, 7]⟩ ⟨2, [1, 2, 9]⟩ = .ok true := by decide
example : eq ⟨2, [1, 2, 0]⟩ ⟨3, [1, 2, 0]⟩ = .ok false := by decide

/-- C56: sums and differences of coordinates of equal dimension are component-wise; different dimensions are
rejected. -/
theorem C56_add_sub {M : Nat} {a b : Dyn} (ha : Wf M a) (hb : Wf M b) :
    (a.dim = b.dim → ∃ c d, add M a b = .ok c ∧ sub M a b = .ok d ∧ Wf M c ∧ Wf M d ∧
      c.dim = a.dim ∧ d.dim = a.dim ∧
      used c = List.zipWith (· + ·) (used a) (used b) ∧ used d = List.zipWith (· - ·) (used a) (used b)) ∧
    (a.dim ≠ b.dim → add M a b = .throw .runtimeError ∧ sub M a b = .throw .runtimeError) := by
  constructor
  · intro h
    obtain ⟨c, h1, h2, h3, h4⟩ := op_ok ha hb h (fun x y => .ok (x + y)) (· + ·) (fun _ _ _ => rfl)
    obtain ⟨d, h1', h2', h3', h4'⟩ := op_ok ha hb h (fun x y => .ok (x - y)) (· - ·) (fun _ _ _ => rfl)
    exact ⟨c, d, by rw [add, if_neg (not_not.2 h), h1], by rw [sub, if_neg (not_not.2 h), h1'], h2, h2',
      h3, h3', h4, h4'⟩
  · intro h
    exact ⟨by rw [add, if_pos h], by rw [sub, if_pos h]⟩

example : Wf 3 ⟨2, [1, 2, 7]⟩ ∧ Wf 3 ⟨2, [5, -2, 0]⟩ := by decide

/-- C56: addition is commutative and subtraction undoes it (`==` of the results). -/
theorem C56_laws {M : Nat} {a b : Dyn} (ha : Wf M a) (hb : Wf M b) (hd : a.dim = b.dim) :
    ∃ c c' d, add M a b = .ok c ∧ add M b a = .ok c' ∧ eq c c' = .ok true ∧
      sub M c b = .ok d ∧ eq d a = .ok true := by
  obtain ⟨c, _, h1, _, h2, _, h3, _, h4, _⟩ := (C56_add_sub ha hb).1 hd
  obtain ⟨c', _, h1', _, h2', _, h3', _, h4', _⟩ := (C56_add_sub hb ha).1 hd.symm
  obtain ⟨_, d, _, g1, _, g2, _, g3, _, g4⟩ := (C56_add_sub h2 hb).1 (by rw [h3, hd])
  refine ⟨c, c', d, h1, h1', ?_, g1, ?_⟩
  · rw [C56_eq h2 h2', h4, h4', h3, h3', hd, List.zipWith_comm_of_comm (fun x y => add_comm x y)]
    simp
  · rw [C56_eq g2 ha, g3, h3, g4, h4]
    have hl : (used a).length = (used b).length := by
      have := ha.length; have := hb.length; omega
    have : List.zipWith (· - ·) (List.zipWith (· + ·) (used a) (used b)) (used b) = used a := by
      refine List.ext_getElem (by simp; omega) ?_
      intro i h h'
      simp
    simp [this]

example : ∃ c c' d, add 3 ⟨2, [1, 2, 7]⟩ ⟨2, [5, -2, 0]⟩ = .ok c ∧ add 3 ⟨2, [5, -2, 0]⟩ ⟨2, [1, 2, 7]⟩ = .ok c' ∧
    eq c c' = .ok true ∧ sub 3 c ⟨2, [5, -2, 0]⟩ = .ok d ∧ eq d ⟨2, [1, 2, 7]⟩ = .ok true :=
  C56_laws (by decide) (by decide) rfl

/-- C56: addition is associative. -/
theorem C56_assoc {M : Nat} {a b c : Dyn} (ha : Wf M a) (hb : Wf M b) (hc : Wf M c) (hd : a.dim = b.dim)
    (hd' : b.dim = c.dim) :
    ∃ x y z w, add M a b = .ok x ∧ add M x c = .ok y ∧ add M b c = .ok z ∧ add M a z = .ok w ∧
      eq y w = .ok true := by
  obtain ⟨x, _, h1, _, h2, _, h3, _, h4, _⟩ := (C56_add_sub ha hb).1 hd
  obtain ⟨y, _, i1, _, i2, _, i3, _, i4, _⟩ := (C56_add_sub h2 hc).1 (by omega)
  obtain ⟨z, _, j1, _, j2, _, j3, _, j4, _⟩ := (C56_add_sub hb hc).1 hd'
  obtain ⟨w, _, k1, _, k2, _, k3, _, k4, _⟩ := (C56_add_sub ha j2).1 (by omega)
  refine ⟨x, y, z, w, h1, i1, j1, k1, ?_⟩
  rw [C56_eq i2 k2, i4, k4, h4, j4, i3, h3, k3]
  have : List.zipWith (· + ·) (List.zipWith (· + ·) (used a) (used b)) (used c)
      = List.zipWith (· + ·) (used a) (List.zipWith (· + ·) (used b) (used c)) := by
    refine List.ext_getElem (by simp) ?_
    intro i h h'
    simp [add_assoc]
  simp [this]

example : ∃ x y z w, add 3 ⟨2, [1, 2, 7]⟩ ⟨2, [5, -2, 0]⟩ = .ok x ∧ add 3 x ⟨2, [3, 3, 3]⟩ = .ok y ∧
    add 3 ⟨2, [5, -2, 0]⟩ ⟨2, [3, 3, 3]⟩ = .ok z ∧ add 3 ⟨2, [1, 2, 7]⟩ z = .ok w ∧ eq y w = .ok true :=
  C56_assoc (by decide) (by decide) (by decide) rfl rfl

/-- C56: division is component-wise (rounding towards zero); different dimensions are rejected; a zero among
the used divisors is undefined behaviour. -/
theorem C56_div {M : Nat} {a b : Dyn} (ha : Wf M a) (hb : Wf M b) :
    (a.dim = b.dim → 0 ∉ used b → ∃ c, div M a b = .ok c ∧ Wf M c ∧ c.dim = a.dim ∧
      used c = List.zipWith Int.tdiv (used a) (used b)) ∧
    (a.dim = b.dim → 0 ∈ used b → div M a b = .ub) ∧
    (a.dim ≠ b.dim → div M a b = .throw .runtimeError) := by
  refine ⟨?_, ?_, ?_⟩
  · intro h h0
    obtain ⟨c, h1, h2, h3, h4⟩ := op_ok ha hb h (fun x y => if y = 0 then .ub else .ok (Int.tdiv x y)) Int.tdiv
      (fun x y hy => if_neg (by rintro rfl; exact h0 hy))
    exact ⟨c, by rw [div, if_neg (not_not.2 h), h1], h2, h3, h4⟩
  · intro h h0
    obtain ⟨k, hk, h0⟩ := List.getElem_of_mem h0
    have hlen : k < a.dim.toNat := by have := hb.length; omega
    rw [div, if_neg (not_not.2 h), forBoth_ub _ a.arr b.arr 0 a.dim.toNat
      (by have := ha.1; have := ha.2; omega) (by have := hb.1; have := hb.2; omega) ?_ k hlen ?_]
    · rfl
    · intro x y
      by_cases hy : y = 0
      · left; exact if_pos hy
      · right; exact ⟨_, if_neg hy⟩
    · refine if_pos ?_
      have : (used b)[k] = b.arr[0 + k]'(by have := hb.length; have := hb.1; have := hb.2; omega) := by simp [used]
      exact this.symm.trans h0
  · intro h
    rw [div, if_pos h]

example : Wf 3 ⟨2, [7, -7, 1]⟩ ∧ Wf 3 ⟨2, [2, 2, 0]⟩ ∧ (0 : Int) ∉ used ⟨2, [2, 2, 0]⟩ := by decide

/-- C56 for the remainder: it reduces as many components as both operands have and leaves the others.

Full statement (`C56_statement`): different dimensions are rejected.  Missing: `%` and `%=` do not reject
them. -/
theorem C56_mod_partial {M : Nat} {a b : Dyn} (ha : Wf M a) (hb : Wf M b) (h0 : 0 ∉ used b) :
    ∃ c, mod a b = .ok c ∧ Wf M c ∧ c.dim = a.dim ∧
      (a.dim = b.dim → used c = List.zipWith Int.tmod (used a) (used b)) ∧
      ∀ (i : Nat) (hi : i < (used c).length),
        (used c)[i] = if h : i < (used b).length then Int.tmod (used a)[i]! (used b)[i] else (used a)[i]! := by
  have ha' := ha.length
  have hb' := hb.length
  obtain ⟨ha1, ha2, ha3⟩ := ha
  obtain ⟨hb1, hb2, hb3⟩ := hb
  have h := forBoth_ok (fun x y => if y = 0 then .ub else .ok (Int.tmod x y)) Int.tmod a.arr b.arr 0
    (min a.dim.toNat b.dim.toNat) (by omega) (by omega) (by
      intro k hk
      refine if_neg ?_
      intro hz
      apply h0
      have hlen : k < (used b).length := by omega
      have : (used b)[k] = b.arr[0 + k]'(by omega) := by simp [used]
      rw [← hz, ← this]
      exact List.getElem_mem hlen)
  obtain ⟨r, hr, hlen, hget⟩ : ∃ r : List Int, forBoth (fun x y => if y = 0 then .ub else .ok (Int.tmod x y))
      a.arr b.arr 0 (min a.dim.toNat b.dim.toNat) = .ok r ∧ r.length = min a.dim.toNat b.dim.toNat ∧
      ∀ i (hi : i < r.length) (h1 : i < a.arr.length) (h2 : i < b.arr.length),
        r[i] = Int.tmod a.arr[i] b.arr[i] :=
    ⟨_, h, by simp; omega, by intros; simp⟩
  have hc : ∀ (i : Nat) (hi : i < (used ⟨a.dim, r ++ a.arr.drop r.length⟩).length),
      (used ⟨a.dim, r ++ a.arr.drop r.length⟩)[i]
        = if h : i < (used b).length then Int.tmod (used a)[i]! (used b)[i] else (used a)[i]! := by
    intro i hi
    have hi' : i < a.dim.toNat := by
      simp only [used, List.length_take] at hi
      omega
    have hia : (used a)[i]! = a.arr[i] := by
      rw [getElem!_pos (used a) i (by omega)]
      simp [used]
    rw [hia]
    simp only [used, List.getElem_take]
    by_cases hib : i < b.dim.toNat
    · rw [dif_pos (by simp; omega), List.getElem_append_left (by omega), hget i (by omega)]
    · rw [dif_neg (by simp; omega), List.getElem_append_right (by omega), List.getElem_drop]
      congr 1
      omega
  refine ⟨⟨a.dim, r ++ a.arr.drop r.length⟩, by rw [mod, hr]; rfl, ⟨?_, ha2, ha3⟩, rfl, ?_, hc⟩
  · simp
    omega
  · intro hd
    refine List.ext_getElem ?_ ?_
    · simp [used]; omega
    · intro i h1 h2
      rw [hc i h1]
      simp only [List.length_zipWith] at h2
      rw [dif_pos (by omega), getElem!_pos (used a) i (by omega), List.getElem_zipWith]

example : Wf 3 ⟨3, [5, -5, 9]⟩ ∧ Wf 3 ⟨2, [3, 3, 0]⟩ ∧ (0 : Int) ∉ used ⟨2, [3, 3, 0]⟩ := by decide
example : mod ⟨3, [5, -5, 9]⟩ ⟨2, [3, 3, 0]⟩ = .ok ⟨3, [2, -2, 9]⟩ := by decide

/-- C56 as stated: every element-wise operation rejects different dimensions. -/
def C56_statement : Prop :=
  ∀ (M : Nat) (a b : Dyn), Wf M a → Wf M b → a.dim ≠ b.dim →
    add M a b = .throw .runtimeError ∧ sub M a b = .throw .runtimeError ∧
    div M a b = .throw .runtimeError ∧ mod a b = .throw .runtimeError

/-- `(5, 5, 5) % (2, 2)` is `(1, 1, 5)`. -/
theorem C56_false : ¬ C56_statement := by
  intro h
  have := (h 3 ⟨3, [5, 5, 5]⟩ ⟨2, [2, 2, 0]⟩ (by decide) (by decide) (by decide)).2.2.2
  revert this
  decide

/-- C56: `push_back` appends one component and is rejected exactly when `MaxDim` components are used. -/
theorem C56_push_back {M : Nat} {c : Dyn} (hc : Wf M c) (v : Int) :
    (c.dim < M → ∃ d, pushBack M c v = .ok d ∧ Wf M d ∧ used d = used c ++ [v] ∧ back d = .ok v) ∧
    (c.dim = M → pushBack M c v = .throw .runtimeError) := by
  have hc' := hc
  obtain ⟨h1, h2, h3⟩ := hc
  constructor
  · intro h
    have hu : used ⟨c.dim + 1, c.arr.set c.dim.toNat v⟩ = used c ++ [v] := by
      have : (c.dim + 1).toNat = c.dim.toNat + 1 := by omega
      simp only [used, this]
      rw [List.take_add_one]
      simp [List.take_set_of_le, (by omega : c.dim.toNat < c.arr.length)]
    refine ⟨⟨c.dim + 1, c.arr.set c.dim.toNat v⟩, ?_, ⟨by simpa using h1, by simp only; omega, by simp only; omega⟩,
      hu, ?_⟩
    · rw [pushBack, if_neg (by omega)]
    · rw [back, if_neg (by simp only; omega), at!_eq_ok (by simp; omega)]
      simp
  · intro h
    rw [pushBack, if_pos (by omega)]

example : Wf 3 ⟨2, [5, -5, 9]⟩ ∧ pushBack 3 ⟨2, [5, -5, 9]⟩ 4 = .ok ⟨3, [5, -5, 4]⟩ := by decide

/-- C56: the conversion to a static array of the right size returns the used components and `==` with an array
compares dimension and components. -/
theorem C56_array {M : Nat} {c : Dyn} (hc : Wf M c) :
    toArray c c.dim.toNat = used c ∧ ∀ l : List Int, l.length ≤ M → (eqArray c l = true ↔ used c = l) := by
  refine ⟨rfl, ?_⟩
  intro l hl
  have := hc.length
  simp only [eqArray, Bool.and_eq_true, decide_eq_true_eq, toArray]
  constructor
  · rintro ⟨h, h'⟩
    rw [used, h]
    exact of_decide_eq_true h'
  · intro h
    have h1 : c.dim = l.length := by rw [← this, h]
    refine ⟨h1, ?_⟩
    rw [← h, used, h1]
    simp

example : eqArray ⟨2, [5, -5, 9]⟩ [5, -5] = true ∧ eqArray ⟨2, [5, -5, 9]⟩ [5, -5, 9] = false := by decide

/-- Equal coordinates may be told apart: the conversion to a larger static array shows components left over
from an earlier assignment. -/
theorem C56_stale : ∃ c d : Dyn, Wf 3 c ∧ Wf 3 d ∧ c = assign ⟨3, [7, 8, 9]⟩ [1, 2] ∧ ofList 3 [1, 2] = .ok d ∧
    eq c d = .ok true ∧ toArray c 3 = [1, 2, 9] ∧ toArray d 3 = [1, 2, 0] :=
  ⟨⟨2, [1, 2, 9]⟩, ⟨2, [1, 2, 0]⟩, by decide⟩

/-- Assigning an array keeps the coordinate well formed and makes its components the used ones. -/
theorem C56_assign {M : Nat} {c : Dyn} (hc : Wf M c) (l : List Int) (hl : l.length ≤ M) :
    Wf M (assign c l) ∧ used (assign c l) = l := by
  obtain ⟨h1, _, _⟩ := hc
  refine ⟨⟨by simp [assign]; omega, by simp [assign], by simp only [assign]; exact_mod_cast hl⟩, ?_⟩
  simp [assign, used]

example : Wf 3 (assign ⟨1, [4, 7, 7]⟩ [5, 6]) ∧ used (assign ⟨1, [4, 7, 7]⟩ [5, 6]) = [5, 6] :=
  C56_assign (by decide) _ (by decide)

/-- The constructor from a dimension accepts every number; above `MaxDim` (or below 0) iterating over the
coordinate is undefined. -/
theorem C56_dim (M : Nat) (d : Int) :
    (0 ≤ d ∧ d ≤ M → Wf M (ofDim M d) ∧ toVec (ofDim M d) = .ok (List.replicate d.toNat 0)) ∧
    (d < 0 ∨ (M : Int) < d → toVec (ofDim M d) = .ub) := by
  constructor
  · rintro ⟨h1, h2⟩
    refine ⟨⟨by simp [ofDim], h1, h2⟩, ?_⟩
    rw [toVec, if_neg (by simp [ofDim]; omega)]
    simp [ofDim]
    omega
  · intro h
    rw [toVec, if_pos (by simpa [ofDim] using h)]

/-- C56: `c[i]` is component `i` of the coordinate; the operator does not check the index, so that it shows unused components up
to `MaxDim` and is undefined beyond. -/
theorem C56_get {M : Nat} {c : Dyn} (hc : Wf M c) :
    (∀ (i : Nat) (hi : i < (used c).length), DynCcoord.get c i = .ok (used c)[i]) ∧ (∀ i, i < M → ∃ v, DynCcoord.get c i = .ok v) ∧
      ∀ i, M ≤ i → DynCcoord.get c i = .ub := by
  have hlen := hc.length
  obtain ⟨h1, h2, h3⟩ := hc
  refine ⟨fun i hi => ?_, fun i hi => ⟨_, at!_eq_ok (by omega)⟩, fun i hi => ?_⟩
  · rw [DynCcoord.get, at!_eq_ok (by omega)]
    simp [used]
  · rw [DynCcoord.get, at!, List.getElem?_eq_none (by omega)]

example : Wf 3 ⟨2, [5, -5, 9]⟩ ∧ used ⟨2, [5, -5, 9]⟩ = [5, -5] ∧ DynCcoord.get ⟨2, [5, -5, 9]⟩ 1 = .ok (-5) ∧
    DynCcoord.get ⟨2, [5, -5, 9]⟩ 2 = .ok 9 ∧ DynCcoord.get ⟨2, [5, -5, 9]⟩ 3 = .ub := by decide

/-- C56: in python, `len(c)` is the number of components, `c[i]` is component `i` for `0 ≤ i < len(c)` and raises
`IndexError` for every other `i` (also for negative ones, unlike a python sequence), and `list(c)` is the list of
the components. -/
theorem C56_python {M : Nat} {c : Dyn} (hc : Wf M c) :
    pyLen c = .ok (used c).length ∧
    (∀ (i : Nat) (hi : i < (used c).length), pyGetItem c i = .ok (used c)[i]) ∧
    (∀ i : Int, i < 0 ∨ ((used c).length : Int) ≤ i → pyGetItem c i = .throw .outOfRange) ∧
    ∀ fuel : Nat, (used c).length < fuel → pyList c fuel 0 = .ok (used c) := by
  have hlen := hc.length
  obtain ⟨h1, h2, h3⟩ := hc
  have hget : ∀ (i : Nat) (hi : i < (used c).length), pyGetItem c i = .ok (used c)[i] := by
    intro i hi
    rw [pyGetItem, if_neg (by omega), at!_eq_ok (by simp; omega)]
    simp [used]
  have hout : ∀ i : Int, i < 0 ∨ ((used c).length : Int) ≤ i → pyGetItem c i = .throw .outOfRange := by
    intro i hi
    rw [pyGetItem, if_pos (by omega)]
  refine ⟨by rw [pyLen, if_neg (by omega), hlen], hget, hout, ?_⟩
  have key : ∀ (n i fuel : Nat), i + n = (used c).length → n < fuel →
      pyList c fuel (i : Int) = .ok ((used c).drop i) := by
    intro n
    induction n with
    | zero =>
      intro i fuel hi hf
      obtain ⟨f, rfl⟩ : ∃ f, fuel = f + 1 := ⟨fuel - 1, by omega⟩
      rw [pyList, hout i (by omega), List.drop_eq_nil_of_le (by omega)]
    | succ n ih =>
      intro i fuel hi hf
      obtain ⟨f, rfl⟩ : ∃ f, fuel = f + 1 := ⟨fuel - 1, by omega⟩
      have := ih (i + 1) f (by omega) (by omega)
      rw [pyList, hget i (by omega)]
      push_cast at this
      simp only [this, Res.ok_bind, Res.pure_eq]
      rw [List.drop_eq_getElem_cons (by omega : i < (used c).length)]
  intro fuel hf
  exact key _ 0 fuel (by omega) hf

example : Wf 3 ⟨2, [5, -5, 9]⟩ ∧ pyList ⟨2, [5, -5, 9]⟩ 10 0 = .ok [5, -5] ∧
    pyGetItem ⟨2, [5, -5, 9]⟩ (-1) = .throw .outOfRange ∧ pyGetItem ⟨2, [5, -5, 9]⟩ 2 = .throw .outOfRange := by decide

/-- In python `DynCcoord(d)` accepts every dimension; with `d` above `MaxDim` the range check of `c[i]` passes for
components which do not exist and the access is undefined; with negative `d` even `len` fails. -/
theorem C56_python_dim (M : Nat) (d : Int) :
    (∀ i : Int, (M : Int) ≤ i → i < d → pyGetItem (ofDim M d) i = .ub) ∧
    (∀ i : Int, 0 ≤ i → i < d → i < M → pyGetItem (ofDim M d) i = .ok 0) ∧
    (d < 0 → pyLen (ofDim M d) = .throw .valueError) := by
  refine ⟨?_, ?_, ?_⟩
  · intro i h1 h2
    rw [pyGetItem, if_neg (by simp only [ofDim]; omega)]
    have : (ofDim M d).arr[i.toNat]? = none := List.getElem?_eq_none (by simp [ofDim]; omega)
    simp [at!, this]
  · intro i h1 h2 h3
    rw [pyGetItem, if_neg (by simp only [ofDim]; omega), at!_eq_ok (by simp [ofDim]; omega)]
    simp [ofDim]
  · intro h
    rw [pyLen, if_pos (by simpa [ofDim] using h)]

example : pyGetItem (ofDim 3 5) 4 = .ub ∧ pyGetItem (ofDim 3 5) 2 = .ok 0 := by decide

end Verif.Props
