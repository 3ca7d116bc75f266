import Verif.Model.Reduce
import Verif.Props.Communicator
/-
C79: reductions and broadcasts.
-/
namespace Verif.Props
open Verif Verif.Communicator Verif.Reduce

/-! ### Helpers -/

variable {ρ : Type}

local instance : LawfulMonad Res := LawfulMonad.mk' Res
  (id_map := by intro α x; cases x <;> rfl)
  (pure_bind := by intros; rfl)
  (bind_assoc := by intro α β γ x f g; cases x <;> rfl)

theorem reduce_cons {α : Type} (op : α → α → Res α) (x : α) (xs : List α) :
    reduce op (x :: xs) = xs.foldlM op x := rfl

theorem commonTy_eq {β : Type} {args : List (Ty × β)} {t : Ty} :
    commonTy args = some t ↔ args ≠ [] ∧ ∀ x ∈ args, x.1 = t := by
  cases args with
  | nil => simp [commonTy]
  | cons a args =>
    obtain ⟨t', b⟩ := a
    have hd : commonTy ((t', b) :: args) = if ∀ x ∈ args, x.1 = t' then some t' else none := rfl
    rw [hd]
    constructor
    · intro h
      by_cases h' : ∀ x ∈ args, x.1 = t'
      · rw [if_pos h'] at h
        cases h
        exact ⟨by simp, by simpa using h'⟩
      · rw [if_neg h'] at h
        cases h
    · rintro ⟨_, h⟩
      have ht : t' = t := h (t', b) (by simp)
      subst ht
      exact if_pos fun x hx => h x (by simp [hx])

theorem wrap_eq {t : Ty} {v : Int} (h : t.fits v) : t.wrap v = v := by
  unfold Ty.wrap
  obtain ⟨h1, h2⟩ := h
  rw [Int.emod_eq_of_lt (by omega) (by omega)]
  omega

theorem wrap_fits (t : Ty) (v : Int) : t.fits (t.wrap v) := by
  have hp : 0 < t.hi - t.lo + 1 := by cases t <;> decide
  unfold Ty.wrap Ty.fits
  have := Int.emod_nonneg (v - t.lo) (by omega : t.hi - t.lo + 1 ≠ 0)
  have := Int.emod_lt_of_pos (v - t.lo) hp
  omega

theorem wrap_congr (t : Ty) (v : Int) : (t.hi - t.lo + 1) ∣ t.wrap v - v := by
  unfold Ty.wrap
  refine ⟨-((v - t.lo) / (t.hi - t.lo + 1)), ?_⟩
  have := Int.emod_add_mul_ediv (v - t.lo) (t.hi - t.lo + 1)
  rw [mul_neg]
  omega

/-- The value of an integer type is determined by its class modulo the number of values. -/
theorem wrap_unique (t : Ty) {a b : Int} (ha : t.fits a) (hb : t.fits b) (h : (t.hi - t.lo + 1) ∣ a - b) : a = b := by
  obtain ⟨k, hk⟩ := h
  obtain ⟨a1, a2⟩ := ha
  obtain ⟨b1, b2⟩ := hb
  have hp : 0 < t.hi - t.lo + 1 := by cases t <;> decide
  have : k = 0 := by
    rcases lt_trichotomy k 0 with h0 | h0 | h0
    · have : (t.hi - t.lo + 1) * k ≤ (t.hi - t.lo + 1) * (-1) := Int.mul_le_mul_of_nonneg_left (by omega) (by omega)
      omega
    · exact h0
    · have : (t.hi - t.lo + 1) * 1 ≤ (t.hi - t.lo + 1) * k := Int.mul_le_mul_of_nonneg_left (by omega) (by omega)
      omega
  subst this
  omega

/-- The sum modulo 2^32 or 2^64, as a value of the type. -/
theorem foldlM_int [Add ρ] (t : Ty) (vs : List Int) : ∀ a : Int, ∃ r, t.fits a → t.fits r ∧
    (t.hi - t.lo + 1) ∣ r - (a + vs.sum) ∧ (vs.map Sc.int).foldlM (add t) (Sc.int a : Sc ρ) = .ok (.int r) := by
  induction vs with
  | nil => intro a; exact ⟨a, fun h => ⟨h, by simp, rfl⟩⟩
  | cons v vs ih =>
    intro a
    obtain ⟨r, hr⟩ := ih (t.wrap (a + v))
    refine ⟨r, fun _ => ?_⟩
    obtain ⟨h1, h2, h3⟩ := hr (wrap_fits _ _)
    refine ⟨h1, ?_, ?_⟩
    · have h4 := wrap_congr t (a + v)
      have := Int.dvd_add h2 h4
      rw [List.sum_cons]
      have e : r - (t.wrap (a + v) + vs.sum) + (t.wrap (a + v) - (a + v)) = r - (a + (v + vs.sum)) := by ring
      rwa [e] at this
    · rw [List.map_cons, List.foldlM_cons]
      exact h3

theorem foldlM_ok {α : Type} (f : α → α → α) (vs : List α) : ∀ a : α,
    vs.foldlM (fun a b => Res.ok (f a b)) a = .ok (vs.foldl f a) := by
  induction vs with
  | nil => intro a; rfl
  | cons v vs ih => intro a; exact ih (f a v)

/-! ### Scalars -/

/-- C79 for `sum` of integers, any number of ranks: every rank gets the same value, which is the value of the type
that is congruent to the sum modulo 2^32 (2^64). -/
theorem C79_sum_wraps [Add ρ] (t : Ty) (vs : List Int) (hne : vs ≠ []) (hv : ∀ v ∈ vs, t.fits v) :
    ∃ r, t.fits r ∧ (t.hi - t.lo + 1) ∣ r - vs.sum ∧
      sum (vs.map fun v => ((t, .int v) : Ty × Sc ρ)) = .ok (vs.map fun _ => .int r) := by
  cases vs with
  | nil => exact absurd rfl hne
  | cons v vs =>
    obtain ⟨r, hr⟩ := foldlM_int (ρ := ρ) t vs v
    obtain ⟨h1, h2, h3⟩ := hr (hv v (by simp))
    refine ⟨r, h1, by rw [List.sum_cons]; exact h2, ?_⟩
    have hc : commonTy ((v :: vs).map fun v => ((t, .int v) : Ty × Sc ρ)) = some t :=
      commonTy_eq.2 ⟨by simp, by simp⟩
    unfold Reduce.sum
    rw [hc]
    dsimp only
    have : ((v :: vs).map fun v => ((t, .int v) : Ty × Sc ρ)).map (·.2) = .int v :: vs.map Sc.int := by simp
    rw [this, reduce_cons, h3]
    simp [Function.comp_def]

/-- C79 for `sum` of integers: the sum, on every rank, if it can be represented (the type's range is all that limits
it: intermediate sums may overflow). -/
theorem C79_sum [Add ρ] (t : Ty) (vs : List Int) (hne : vs ≠ []) (hv : ∀ v ∈ vs, t.fits v) (hs : t.fits vs.sum) :
    sum (vs.map fun v => ((t, .int v) : Ty × Sc ρ)) = .ok (vs.map fun _ => .int vs.sum) := by
  obtain ⟨r, h1, h2, h3⟩ := C79_sum_wraps (ρ := ρ) t vs hne hv
  rw [h3, wrap_unique t h1 hs h2]

/-- An intermediate overflow on four ranks. -/
example : Ty.i32.fits 2147483647 ∧ sum [(.i32, .int 2147483647), (.i32, .int 1), (.i32, .int (-5)),
    ((.i32, .int 2) : Ty × Sc Int)] = .ok [.int 2147483645, .int 2147483645, .int 2147483645, .int 2147483645] := by
  decide +kernel

/-- C79 for `sum` of floating point numbers (exact arithmetic). -/
theorem C79_sum_real [AddMonoid ρ] (xs : List ρ) (hne : xs ≠ []) :
    sum (xs.map fun x => ((.f64, .real x) : Ty × Sc ρ)) = .ok (xs.map fun _ => .real xs.sum) := by
  cases xs with
  | nil => exact absurd rfl hne
  | cons x xs =>
    have hc : commonTy ((x :: xs).map fun x => ((.f64, .real x) : Ty × Sc ρ)) = some .f64 :=
      commonTy_eq.2 ⟨by simp, by simp⟩
    unfold Reduce.sum
    rw [hc]
    dsimp only
    have : ((x :: xs).map fun x => ((.f64, .real x) : Ty × Sc ρ)).map (·.2) = .real x :: xs.map Sc.real := by simp
    rw [this, reduce_cons]
    have key : ∀ (xs : List ρ) (a : ρ), (xs.map Sc.real).foldlM (add .f64) (.real a) = .ok (.real (a + xs.sum)) := by
      intro xs
      induction xs with
      | nil => intro a; simp
      | cons y ys ih =>
        intro a
        rw [List.map_cons, List.foldlM_cons, List.sum_cons, ← add_assoc]
        exact ih (a + y)
    rw [key, Res.ok_bind]
    simp [Function.comp_def]

example : sum [(.f64, .real 2), ((.f64, .real 5) : Ty × Sc Int)] = .ok [.real 7, .real 7] := by decide +kernel

/-- C79: if the ranks do not use one type, the call is erroneous. -/
theorem C79_one_type [Add ρ] (args : Args ρ) (h : ∃ x ∈ args, ∃ y ∈ args, x.1 ≠ y.1) :
    sum args = .ub ∧ scan args = .ub ∧ ∀ root, bcast args root = .ub := by
  have hc : commonTy args = none := by
    cases hc : commonTy args with
    | none => rfl
    | some t =>
      obtain ⟨_, ha⟩ := commonTy_eq.1 hc
      obtain ⟨x, hx, y, hy, hne⟩ := h
      exact absurd ((ha x hx).trans (ha y hy).symm) hne
  refine ⟨?_, ?_, fun root => ?_⟩
  · unfold Reduce.sum; rw [hc]
  · unfold scan; rw [hc]
  · unfold bcast; rw [hc]

example : sum [(.i32, .int 3), (.i64, .int 4), ((.i32, .int 5) : Ty × Sc Int)] = .ub :=
  (C79_one_type _ ⟨(.i32, .int 3), by simp, (.i64, .int 4), by simp, by decide⟩).1

/-- C79 for `max`: every rank gets the greatest of the values. -/
theorem C79_max (vs : List Int) (hne : vs ≠ []) :
    ∃ r, maxInt vs = .ok (vs.map fun _ => r) ∧ r ∈ vs ∧ ∀ v ∈ vs, v ≤ r := by
  cases vs with
  | nil => exact absurd rfl hne
  | cons v vs =>
    refine ⟨vs.foldl max v, ?_, ?_⟩
    · unfold maxInt
      rw [reduce_cons, foldlM_ok, Res.ok_bind]
    · have key : ∀ (vs : List Int) (a : Int), (vs.foldl max a = a ∨ vs.foldl max a ∈ vs) ∧ a ≤ vs.foldl max a ∧
          ∀ v ∈ vs, v ≤ vs.foldl max a := by
        intro vs
        induction vs with
        | nil => intro a; simp
        | cons x xs ih =>
          intro a
          obtain ⟨h1, h2, h3⟩ := ih (max a x)
          rw [List.foldl_cons]
          refine ⟨?_, by omega, ?_⟩
          · rcases h1 with h1 | h1
            · rw [h1]
              rcases le_total a x with h | h
              · rw [max_eq_right h]; simp
              · rw [max_eq_left h]; simp
            · exact Or.inr (by simp [h1])
          · intro y hy
            rcases List.mem_cons.1 hy with rfl | hy
            · omega
            · exact h3 y hy
      obtain ⟨h1, h2, h3⟩ := key vs v
      refine ⟨?_, ?_⟩
      · rcases h1 with h1 | h1
        · rw [h1]; simp
        · simp [h1]
      · intro y hy
        rcases List.mem_cons.1 hy with rfl | hy
        · exact h2
        · exact h3 y hy

example : maxInt [3, -1, 7, 7, 2] = .ok [7, 7, 7, 7, 7] := by decide +kernel

/-- C79 for `logical_and` and `logical_or`. -/
theorem C79_logical (vs : List Bool) (hne : vs ≠ []) :
    logicalAnd vs = .ok (vs.map fun _ => decide (∀ v ∈ vs, v = true)) ∧
    logicalOr vs = .ok (vs.map fun _ => decide (∃ v ∈ vs, v = true)) := by
  cases vs with
  | nil => exact absurd rfl hne
  | cons v vs =>
    have h1 : ∀ (vs : List Bool) (a : Bool), vs.foldl (· && ·) a = (a && decide (∀ v ∈ vs, v = true)) := by
      intro vs
      induction vs with
      | nil => intro a; simp
      | cons x xs ih => intro a; rw [List.foldl_cons, ih]; cases a <;> cases x <;> simp
    have h2 : ∀ (vs : List Bool) (a : Bool), vs.foldl (· || ·) a = (a || decide (∃ v ∈ vs, v = true)) := by
      intro vs
      induction vs with
      | nil => intro a; simp
      | cons x xs ih => intro a; rw [List.foldl_cons, ih]; cases a <;> cases x <;> simp
    constructor
    · unfold logicalAnd
      rw [reduce_cons, foldlM_ok, Res.ok_bind, h1]
      cases v <;> simp
    · unfold logicalOr
      rw [reduce_cons, foldlM_ok, Res.ok_bind, h2]
      cases v <;> simp

example : logicalAnd [true, false, true] = .ok [false, false, false] ∧
    logicalOr [false, false, true] = .ok [true, true, true] := by decide +kernel

/-- C79 for `bcast`: every rank gets the value of the root. -/
theorem C79_bcast (t : Ty) (args : List (Sc ρ)) (root : Nat) (hr : root < args.length) :
    bcast (args.map fun x => (t, x)) root = .ok (args.map fun _ => args[root]) := by
  have hc : commonTy (args.map fun x => (t, x)) = some t :=
    commonTy_eq.2 ⟨by intro h; rw [List.map_eq_nil_iff] at h; rw [h] at hr; simp at hr, by simp⟩
  unfold bcast
  rw [hc]
  dsimp only
  rw [if_neg (by omega)]
  simp [List.getElem?_eq_getElem hr, Function.comp_def]

example : bcast [(.i64, .int 3), ((.i64, .int 4) : Ty × Sc Int), (.i64, .int 9)] 1 =
    .ok [.int 4, .int 4, .int 4] := by decide +kernel

/-- C79 for `cumulative_sum`: rank `r` gets what `sum` gives on the ranks up to `r`. -/
theorem C79_scan [Add ρ] (t : Ty) (args : List (Sc ρ)) (res : List (Sc ρ))
    (h : scan (args.map fun x => (t, x)) = .ok res) : res.length = args.length ∧
      ∀ (r : Nat) (hr : r < args.length), ∃ y, res[r]? = some y ∧
        sum ((args.take (r + 1)).map fun x => (t, x)) = .ok ((args.take (r + 1)).map fun _ => y) := by
  by_cases hne : args = []
  · subst hne; unfold scan commonTy at h; cases h
  have hc : commonTy (args.map fun x => (t, x)) = some t := commonTy_eq.2 ⟨by simpa using hne, by simp⟩
  unfold scan at h
  rw [hc] at h
  dsimp only at h
  have hm : (args.map fun x => (t, x)).map (·.2) = args := by simp
  rw [hm, List.length_map] at h
  have key : ∀ (l : List Nat) (f : Nat → Res (Sc ρ)) (res : List (Sc ρ)), l.mapM f = .ok res →
      res.length = l.length ∧ ∀ (i : Nat) (hi : i < l.length), ∃ y, res[i]? = some y ∧ f l[i] = .ok y := by
    intro l f
    induction l with
    | nil => intro res h; cases h; simp
    | cons a l ih =>
      intro res h
      rw [List.mapM_cons] at h
      obtain ⟨y, h1, h2⟩ := Res.bind_eq_ok.1 h
      obtain ⟨ys, h3, h4⟩ := Res.bind_eq_ok.1 h2
      cases h4
      obtain ⟨e1, e2⟩ := ih ys h3
      refine ⟨by simp [e1], fun i hi => ?_⟩
      cases i with
      | zero => exact ⟨y, rfl, h1⟩
      | succ i => exact e2 i (by simpa using hi)
  obtain ⟨h1, h2⟩ := key _ _ _ h
  rw [List.length_range] at h1
  refine ⟨h1, fun r hr => ?_⟩
  obtain ⟨y, e1, e2⟩ := h2 r (by simpa using hr)
  refine ⟨y, e1, ?_⟩
  rw [List.getElem_range] at e2
  have hc' : commonTy ((args.take (r + 1)).map fun x => (t, x)) = some t :=
    commonTy_eq.2 ⟨by intro h; rw [List.map_eq_nil_iff, List.take_eq_nil_iff] at h; exact h.elim (fun h => by omega) hne,
      fun x hx => by obtain ⟨y, _, rfl⟩ := List.mem_map.1 hx; rfl⟩
  unfold Reduce.sum
  rw [hc']
  dsimp only
  have : ((args.take (r + 1)).map fun x => (t, x)).map (·.2) = args.take (r + 1) := by simp
  rw [this, e2, Res.ok_bind]
  simp [Function.comp_def]

example : ∃ y, ([.int 2, .int 5, .int 6] : List (Sc Int))[1]? = some y ∧
    sum [(.i32, .int 2), (.i32, .int 3)] = .ok [y, y] :=
  (C79_scan .i32 [.int 2, .int 3, .int 1] [.int 2, .int 5, .int 6] (by decide +kernel)).2 1 (by decide)

/-- C79 for `cumulative_sum` of integers: rank `r` gets the sum of the values of the ranks up to `r`. -/
theorem C79_scan_int [Add ρ] (t : Ty) (vs : List Int) (hne : vs ≠ []) (hv : ∀ v ∈ vs, t.fits v)
    (hs : ∀ r, t.fits (vs.take (r + 1)).sum) : scan (vs.map fun v => ((t, .int v) : Ty × Sc ρ)) =
      .ok ((List.range vs.length).map fun r => .int (vs.take (r + 1)).sum) := by
  have hc : commonTy (vs.map fun v => ((t, .int v) : Ty × Sc ρ)) = some t :=
    commonTy_eq.2 ⟨by simpa using hne, by simp⟩
  unfold scan
  rw [hc]
  dsimp only
  rw [List.length_map]
  have key : ∀ (l : List Nat) (f : Nat → Res (Sc ρ)) (g : Nat → Sc ρ), (∀ r ∈ l, f r = .ok (g r)) →
      l.mapM f = .ok (l.map g) := by
    intro l f g
    induction l with
    | nil => intro _; rfl
    | cons a l ih =>
      intro h
      rw [List.mapM_cons, h a (by simp), ih fun r hr => h r (by simp [hr])]
      rfl
  refine key _ _ _ fun r hr => ?_
  have hr := List.mem_range.1 hr
  have hsub : ∀ v ∈ vs.take (r + 1), t.fits v := fun v h => hv v (List.mem_of_mem_take h)
  have hm : ((vs.map fun v => ((t, .int v) : Ty × Sc ρ)).map (·.2)).take (r + 1) = (vs.take (r + 1)).map Sc.int := by
    simp [List.map_take, Function.comp_def]
  rw [hm]
  have hs' := hs r
  cases hl : vs.take (r + 1) with
  | nil => exact absurd hl (by simpa using hne)
  | cons v l =>
    rw [hl] at hs' hsub
    obtain ⟨y, hy⟩ := foldlM_int (ρ := ρ) t l v
    obtain ⟨e1, e2, e3⟩ := hy (hsub v (by simp))
    rw [List.map_cons, reduce_cons, e3, List.sum_cons, wrap_unique t e1 (by simpa using hs') e2]

example : scan [(.i32, .int 2), (.i32, .int 3), ((.i32, .int 1) : Ty × Sc Int), (.i32, .int 5)] =
    .ok [.int 2, .int 5, .int 6, .int 11] := by decide +kernel

/-! ### Matrices -/

/-- A value of the type. -/
def IsOf (t : Ty) : Sc ρ → Prop
  | .int v => t.fits v ∧ t ≠ .f64 ∧ t ≠ .c128
  | .real _ => t = .f64
  | .cplx _ _ => t = .c128

theorem add_isOf [Add ρ] {t : Ty} {x y : Sc ρ} (hx : IsOf t x) (hy : IsOf t y) : ∃ z, add t x y = .ok z ∧ IsOf t z := by
  cases x <;> cases y <;> simp only [IsOf] at hx hy <;> subst_vars <;>
    first
    | exact ⟨_, rfl, wrap_fits _ _, hx.2⟩
    | exact ⟨_, rfl, rfl⟩
    | (exfalso; simp_all)

theorem zipM_ok {α : Type} {op : α → α → Res α} {P : α → Prop} (hop : ∀ x y, P x → P y → ∃ z, op x y = .ok z ∧ P z) :
    ∀ xs ys : List α, xs.length = ys.length → (∀ x ∈ xs, P x) → (∀ y ∈ ys, P y) → ∃ zs, zipM op xs ys = .ok zs ∧
      zs.length = xs.length ∧ (∀ z ∈ zs, P z) ∧ ∀ (k : Nat) (x y z : α), xs[k]? = some x → ys[k]? = some y →
        zs[k]? = some z → op x y = .ok z := by
  intro xs
  induction xs with
  | nil =>
    intro ys h _ _
    have : ys = [] := List.length_eq_zero_iff.1 (by simpa using h.symm)
    subst this
    exact ⟨[], rfl, rfl, by simp, by simp⟩
  | cons x xs ih =>
    intro ys h hx hy
    cases ys with
    | nil => simp at h
    | cons y ys =>
      obtain ⟨z, h1, h2⟩ := hop x y (hx x (by simp)) (hy y (by simp))
      obtain ⟨zs, e1, e2, e3, e4⟩ := ih ys (by simpa using h) (fun a ha => hx a (by simp [ha]))
        (fun a ha => hy a (by simp [ha]))
      refine ⟨z :: zs, ?_, by simp [e2], ?_, ?_⟩
      · unfold zipM
        rw [h1, Res.ok_bind, e1, Res.ok_bind]
      · intro a ha
        rcases List.mem_cons.1 ha with rfl | ha
        · exact h2
        · exact e3 a ha
      · intro k a b c ha hb hc
        cases k with
        | zero =>
          simp only [List.getElem?_cons_zero, Option.some.injEq] at ha hb hc
          subst ha hb hc
          exact h1
        | succ k => exact e4 k a b c (by simpa using ha) (by simpa using hb) (by simpa using hc)

theorem reduce_zip {α : Type} {op : α → α → Res α} {P : α → Prop} {n : Nat}
    (hop : ∀ x y, P x → P y → ∃ z, op x y = .ok z ∧ P z) : ∀ (bs : List (List α)) (b : List α), b.length = n →
      (∀ x ∈ b, P x) → (∀ c ∈ bs, c.length = n ∧ ∀ x ∈ c, P x) → ∃ z, bs.foldlM (zipM op) b = .ok z ∧ z.length = n ∧
        ∀ (k : Nat) (x y : α) (xs : List α), b[k]? = some x → bs.mapM (·[k]?) = some xs → z[k]? = some y →
          xs.foldlM op x = .ok y := by
  intro bs
  induction bs with
  | nil =>
    intro b hb _ _
    refine ⟨b, rfl, hb, fun k x y xs h1 h2 h3 => ?_⟩
    cases h2
    rw [h1] at h3
    cases h3
    rfl
  | cons c bs ih =>
    intro b hb hp hbs
    obtain ⟨hc, hcp⟩ := hbs c (by simp)
    obtain ⟨w, e1, e2, e3, e4⟩ := zipM_ok hop b c (by omega) hp hcp
    obtain ⟨z, f1, f2, f3⟩ := ih w (by omega) e3 fun d hd => hbs d (by simp [hd])
    refine ⟨z, ?_, f2, fun k x y xs h1 h2 h3 => ?_⟩
    · rw [List.foldlM_cons, e1]
      exact f1
    · rw [List.mapM_cons] at h2
      obtain ⟨v, g1, g2⟩ := Option.bind_eq_some_iff.1 h2
      obtain ⟨vs, g3, g4⟩ := Option.bind_eq_some_iff.1 g2
      cases g4
      have hk : k < w.length := by
        have := (List.getElem?_eq_some_iff.1 h1).1
        omega
      have hw : w[k]? = some w[k] := List.getElem?_eq_getElem hk
      rw [List.foldlM_cons, e4 k x v _ h1 g1 hw, Res.ok_bind]
      exact f3 k _ y vs hw g3 h3

/-- C79 for `sum` of matrices, in full: on every rank, element `(r, c)` of the result is the sum of the elements
`(r, c)` of the arguments. -/
def C79_matrix_statement : Prop :=
  ∀ (t : Ty) (R C : Nat) (args : List (MatRef (Sc Int))), args ≠ [] →
    (∀ m ∈ args, m.rows = R ∧ m.cols = C ∧ ∀ r c, r < R → c < C → ∃ x, refElem m r c = some x ∧ IsOf t x) →
    ∃ res, sumMat (args.map fun m => (t, m)) = .ok res ∧ res.length = args.length ∧
      ∀ M ∈ res, M.rows = R ∧ M.cols = C ∧ ∀ r c, r < R → c < C → ∀ xs, args.mapM (refElem · r c) = some xs →
        ∃ y, matElem M r c = some y ∧ Reduce.sum (xs.map fun x => (t, x)) = .ok (xs.map fun _ => y)

/-- The same for matrices in contiguous memory.  Missing: parts of larger matrices (outer stride), see
`C79_matrix_false`. -/
theorem C79_matrix_partial [Add ρ] (t : Ty) (R C : Nat) (args : List (MatRef (Sc ρ))) (hne : args ≠ [])
    (h : ∀ m ∈ args, m.rows = R ∧ m.cols = C ∧ Contiguous m ∧
      ∀ r c, r < R → c < C → ∃ x, refElem m r c = some x ∧ IsOf t x) :
    ∃ res, sumMat (args.map fun m => (t, m)) = .ok res ∧ res.length = args.length ∧
      ∀ M ∈ res, M.rows = R ∧ M.cols = C ∧ ∀ r c, r < R → c < C → ∀ xs, args.mapM (refElem · r c) = some xs →
        ∃ y, matElem M r c = some y ∧ Reduce.sum (xs.map fun x => (t, x)) = .ok (xs.map fun _ => y) := by
  have hbuf : ∀ m ∈ args, readBuf m.mem m.size = .ok (m.mem.take (R * C)) := by
    intro m hm
    obtain ⟨h1, h2, ⟨h3, _⟩, _⟩ := h m hm
    unfold readBuf MatRef.size
    rw [h1, h2] at h3 ⊢
    rw [if_neg (by omega)]
  have hlen : ∀ m ∈ args, (m.mem.take (R * C)).length = R * C := by
    intro m hm
    obtain ⟨h1, h2, ⟨h3, _⟩, _⟩ := h m hm
    rw [h1, h2] at h3
    simp [h3]
  have hidx : ∀ r c, r < R → c < C → c * R + r < R * C := by
    intro r c hr hc
    calc c * R + r < c * R + R := by omega
      _ = (c + 1) * R := by ring
      _ ≤ C * R := Nat.mul_le_mul_right _ hc
      _ = R * C := Nat.mul_comm _ _
  have helem : ∀ m ∈ args, ∀ r c, r < R → c < C → (m.mem.take (R * C))[c * R + r]? = refElem m r c := by
    intro m hm r c hr hc
    obtain ⟨h1, h2, ⟨_, h4⟩, _⟩ := h m hm
    rw [List.getElem?_take_of_lt (hidx r c hr hc)]
    unfold refElem
    rcases h4 with h4 | h4
    · rw [h4, h1]
    · have : c = 0 := by omega
      subst this
      simp
  have hP : ∀ m ∈ args, ∀ x ∈ m.mem.take (R * C), IsOf t x := by
    intro m hm x hx
    obtain ⟨k, hk, e⟩ := List.getElem_of_mem hx
    rw [hlen m hm] at hk
    have hR : 0 < R := Nat.pos_of_ne_zero fun e => by rw [e] at hk; simp at hk
    have hr := Nat.mod_lt k hR
    have hc : k / R < C := Nat.div_lt_of_lt_mul hk
    obtain ⟨y, e1, e2⟩ := (h m hm).2.2.2 (k % R) (k / R) hr hc
    rw [← helem m hm _ _ hr hc] at e1
    have hkk : k / R * R + k % R = k := by rw [Nat.mul_comm]; exact Nat.div_add_mod k R
    rw [hkk, List.getElem?_eq_getElem (by rw [hlen m hm]; exact hk), e] at e1
    cases e1
    exact e2
  have hmap : ∀ l : List (MatRef (Sc ρ)), (∀ m ∈ l, m ∈ args) →
      (l.map fun m => (t, m)).mapM (fun x : Ty × MatRef (Sc ρ) => readBuf x.2.mem x.2.size)
        = .ok (l.map fun m => m.mem.take (R * C)) := by
    intro l
    induction l with
    | nil => intro _; rfl
    | cons m l ih =>
      intro hl
      rw [List.map_cons, List.mapM_cons, hbuf m (hl m (by simp)), ih fun x hx => hl x (by simp [hx])]
      rfl
  have hcom : commonTy (args.map fun m => (t, m)) = some t := commonTy_eq.2 ⟨by simpa using hne, by simp⟩
  unfold sumMat
  rw [hcom]
  dsimp only
  rw [hmap args fun m hm => hm, Res.ok_bind]
  cases hargs : args with
  | nil => exact absurd hargs hne
  | cons m ms =>
    have hm : m ∈ args := by rw [hargs]; simp
    have hms : ∀ x ∈ ms, x ∈ args := fun x hx => by rw [hargs]; simp [hx]
    obtain ⟨z, e1, e2, e3⟩ := reduce_zip (n := R * C) (fun x y => add_isOf (t := t) (x := x) (y := y))
      (ms.map fun m => m.mem.take (R * C)) (m.mem.take (R * C)) (hlen m hm) (hP m hm) (by
        intro c hc
        obtain ⟨x, hx, rfl⟩ := List.mem_map.1 hc
        exact ⟨hlen x (hms x hx), hP x (hms x hx)⟩)
    rw [List.map_cons, reduce_cons, e1, Res.ok_bind]
    refine ⟨_, rfl, by simp, ?_⟩
    intro M hM
    rw [← hargs] at hM
    simp only [List.map_map, List.mem_map, Function.comp_apply] at hM
    obtain ⟨m', hm', rfl⟩ := hM
    obtain ⟨g1, g2, _⟩ := h m' hm'
    refine ⟨g1, g2, fun r c hr hc xs hxs => ?_⟩
    have hk : c * R + r < z.length := by rw [e2]; exact hidx r c hr hc
    have hz : z[c * R + r]? = some z[c * R + r] := List.getElem?_eq_getElem hk
    refine ⟨z[c * R + r], by unfold matElem; dsimp only; rw [g1]; exact hz, ?_⟩
    rw [List.mapM_cons] at hxs
    obtain ⟨v, f1, f2⟩ := Option.bind_eq_some_iff.1 hxs
    obtain ⟨vs, f3, f4⟩ := Option.bind_eq_some_iff.1 f2
    cases f4
    have hvs : (ms.map fun m => m.mem.take (R * C)).mapM (·[c * R + r]?) = some vs := by
      have : ∀ (l : List (MatRef (Sc ρ))) (vs : List (Sc ρ)), (∀ x ∈ l, x ∈ args) →
          l.mapM (refElem · r c) = some vs → (l.map fun m => m.mem.take (R * C)).mapM (·[c * R + r]?) = some vs := by
        intro l
        induction l with
        | nil => intro vs _ h; exact h
        | cons a l ih =>
          intro vs hl h
          rw [List.mapM_cons] at h
          obtain ⟨v, f1, f2⟩ := Option.bind_eq_some_iff.1 h
          obtain ⟨vs', f3, f4⟩ := Option.bind_eq_some_iff.1 f2
          cases f4
          rw [List.map_cons, List.mapM_cons, helem a (hl a (by simp)) r c hr hc, f1,
            ih vs' (fun x hx => hl x (by simp [hx])) f3]
          rfl
      exact this ms vs hms f3
    have hred := e3 (c * R + r) v _ vs (by rw [helem m hm r c hr hc]; exact f1) hvs hz
    have hc' : commonTy ((v :: vs).map fun x => (t, x)) = some t := commonTy_eq.2 ⟨by simp, by simp⟩
    unfold Reduce.sum
    rw [hc']
    dsimp only
    have hl : ((v :: vs).map fun x => (t, x)).map (·.2) = v :: vs := by simp
    rw [hl, reduce_cons, hred, Res.ok_bind]
    simp [Function.comp_def]

/-- Two 2x2 matrices in contiguous memory. -/
example : sumMat [(.i32, ⟨2, 2, 2, [.int 1, .int 2, .int 3, .int 4]⟩),
    ((.i32, ⟨2, 2, 2, [.int 10, .int 20, .int 30, .int 40]⟩) : Ty × MatRef (Sc Int))] =
    .ok [⟨2, 2, [.int 11, .int 22, .int 33, .int 44]⟩, ⟨2, 2, [.int 11, .int 22, .int 33, .int 44]⟩] := by
  decide +kernel

/-- False: the upper rows of a larger matrix on one rank (`comm.sum(a[:1])` with `a` in Fortran order). -/
theorem C79_matrix_false : ¬ C79_matrix_statement := by
  intro h
  obtain ⟨res, h1, _, h3⟩ := h .i32 1 2 [⟨1, 2, 2, [.int 1, .int 2, .int 3, .int 4]⟩] (by simp) (by
    intro m hm
    rw [List.mem_singleton] at hm
    subst hm
    refine ⟨rfl, rfl, fun r c hr hc => ?_⟩
    have hr : r = 0 := by omega
    have hc : c = 0 ∨ c = 1 := by omega
    subst hr
    rcases hc with rfl | rfl
    · exact ⟨.int 1, rfl, by decide, by decide, by decide⟩
    · exact ⟨.int 3, rfl, by decide, by decide, by decide⟩)
  have e : res = [⟨1, 2, [.int 1, .int 2]⟩] := by
    have h2 : sumMat [((.i32, ⟨1, 2, 2, [.int 1, .int 2, .int 3, .int 4]⟩) : Ty × MatRef (Sc Int))] =
      .ok [⟨1, 2, [.int 1, .int 2]⟩] := by decide +kernel
    have := h1.symm.trans h2
    injection this
  subst e
  obtain ⟨_, _, h4⟩ := h3 _ (List.mem_singleton.2 rfl)
  obtain ⟨y, e1, e2⟩ := h4 0 1 (by omega) (by omega) [.int 3] rfl
  have ey : y = .int 2 := by
    have : matElem (⟨1, 2, [.int 1, .int 2]⟩ : Mat (Sc Int)) 0 1 = some (.int 2) := rfl
    rw [this] at e1
    exact (Option.some.inj e1).symm
  subst ey
  exact absurd e2 (by decide +kernel)

/-- The same call without MPI gives the argument, so the result depends on how muGrid was built. -/
theorem C79_matrix_serial :
    sumMatSerial (⟨1, 2, 2, [.int 1, .int 2, .int 3, .int 4]⟩ : MatRef (Sc Int)) = .ok ⟨1, 2, [.int 1, .int 3]⟩ ∧
    sumMat [((.i32, ⟨1, 2, 2, [.int 1, .int 2, .int 3, .int 4]⟩) : Ty × MatRef (Sc Int))] =
      .ok [⟨1, 2, [.int 1, .int 2]⟩] := by decide +kernel

/-! ### Python -/

/-- Which overloads python picks for `sum`. -/
theorem C79_choose_sum (cv : Conv ρ) :
    (∀ v, choose cv sumTys (.int v) =
      if Ty.i32.fits v then some (.i32, .int v) else (cv.ofInt v).map fun x => (.f64, .real x)) ∧
    (∀ x, choose cv sumTys (.float x) = some (.f64, .real x)) ∧ (∀ x y, choose cv sumTys (.complex x y) = none) ∧
    ∀ x v, cv.trunc x = some v → Ty.i32.fits v → choose cv sumTys (.other x) = some (.i32, .int v) := by
  refine ⟨fun v => ?_, fun x => rfl, fun x y => rfl, fun x v h1 h2 => ?_⟩
  · by_cases h : Ty.i32.fits v
    · simp [choose, firstOf, sumTys, load, loadInt, h]
    · cases hc : cv.ofInt v <;> simp [choose, firstOf, sumTys, load, loadInt, loadReal, h, hc]
  · simp [choose, firstOf, sumTys, load, loadInt, loadReal, h1, h2]

/-- ... and for `bcast` and `cumulative_sum` of integers: the narrowest type that holds the value. -/
theorem C79_choose_int (cv : Conv ρ) (v : Int) {ts : List Ty} (hts : ts = scanTys ∨ ts = bcastTys) :
    choose cv ts (.int v) = if Ty.i32.fits v then some (.i32, .int v) else if Ty.u32.fits v then some (.u32, .int v)
      else if Ty.i64.fits v then some (.i64, .int v) else (cv.ofInt v).map fun x => (.f64, .real x) := by
  by_cases h1 : Ty.i32.fits v <;> by_cases h2 : Ty.u32.fits v <;> by_cases h3 : Ty.i64.fits v <;>
    cases hc : cv.ofInt v <;> rcases hts with rfl | rfl <;>
    simp [choose, firstOf, scanTys, bcastTys, load, loadInt, loadReal, h1, h2, h3, hc]

/-- 3000000000 does not fit `int` but `unsigned int`. -/
example (cv : Conv Int) : choose cv bcastTys (.int 3000000000) = some (.u32, .int 3000000000) := by
  rw [C79_choose_int cv _ (Or.inr rfl), if_neg (by decide), if_pos (by decide)]

private theorem chooseAll_ok {cv : Conv ρ} {ts : List Ty} {β : Type} {l : List β} {x : β → PyNum ρ} {y : β → Ty × Sc ρ}
    (hne : l ≠ []) (h : ∀ b ∈ l, choose cv ts (x b) = some (y b)) : chooseAll cv ts (l.map x) = .ok (l.map y) := by
  have hm : ∀ l : List β, (∀ b ∈ l, choose cv ts (x b) = some (y b)) → (l.map x).mapM (choose cv ts) = some (l.map y) := by
    intro l
    induction l with
    | nil => intro _; rfl
    | cons b l ih =>
      intro h
      rw [List.map_cons, List.mapM_cons, h b (by simp), ih fun c hc => h c (by simp [hc])]
      rfl
  unfold chooseAll
  rw [if_neg, hm l h]
  rintro ⟨_, hn⟩
  obtain ⟨b, hb⟩ := List.exists_mem_of_ne_nil l hne
  have := hn (x b) (List.mem_map_of_mem hb)
  rw [h b hb] at this
  cases this

/-- C79 in python, in full: `comm.sum` of python integers is their sum. -/
def C79_python_statement : Prop := ∀ vs : List Int, vs ≠ [] →
  pySum (ρ := Int) ⟨0, some, some⟩ (vs.map .int) = .ok (vs.map fun _ => .int vs.sum) ∨
  pySum (ρ := Int) ⟨0, some, some⟩ (vs.map .int) = .ok (vs.map fun _ => .real vs.sum)

/-- False: one rank passes 1, another 2^31; the first takes part with an `int`, the other with a `double`. -/
theorem C79_python_false : ¬ C79_python_statement := by
  intro h
  have := h [2147483648, 1] (by simp)
  revert this
  decide +kernel

/-- Exactly when python integers of several ranks can be summed: all of them are less than 2^31 in size, or none. -/
theorem C79_python_exact [Add ρ] (cv : Conv ρ) (vs : List Int) (hcv : ∀ v ∈ vs, ∃ x, cv.ofInt v = some x) :
    (∃ res, pySum cv (vs.map .int) = .ok res) ↔
      vs ≠ [] ∧ ((∀ v ∈ vs, Ty.i32.fits v) ∨ ∀ v ∈ vs, ¬ Ty.i32.fits v) := by
  by_cases hne : vs = []
  · subst hne
    constructor
    · rintro ⟨res, h⟩; cases h
    · rintro ⟨h, _⟩; exact absurd rfl h
  have key : ∃ y : Int → Ty × Sc ρ, chooseAll cv sumTys (vs.map .int) = .ok (vs.map y) ∧
      ∀ v ∈ vs, (Ty.i32.fits v → y v = (.i32, .int v)) ∧
        (¬ Ty.i32.fits v → ∃ x, cv.ofInt v = some x ∧ y v = (.f64, .real x)) := by
    refine ⟨fun v => (choose cv sumTys (.int v)).getD (.i32, .int v), ?_, ?_⟩
    · refine chooseAll_ok hne fun v hv => ?_
      obtain ⟨x, hx⟩ := hcv v hv
      rw [(C79_choose_sum cv).1 v]
      split <;> simp [hx]
    · intro v hv
      obtain ⟨x, hx⟩ := hcv v hv
      dsimp only
      rw [(C79_choose_sum cv).1 v]
      constructor
      · intro h; rw [if_pos h]; rfl
      · intro h; rw [if_neg h]; exact ⟨x, hx, by rw [hx]; rfl⟩
  obtain ⟨y, h1, h2⟩ := key
  unfold pySum
  rw [h1, Res.ok_bind]
  constructor
  · rintro ⟨res, hr⟩
    refine ⟨hne, ?_⟩
    by_contra hc
    rw [not_or] at hc
    obtain ⟨ha, hb⟩ := hc
    have ha : ∃ v ∈ vs, ¬ Ty.i32.fits v := by
      by_contra h; exact ha fun v hv => by_contra fun h' => h ⟨v, hv, h'⟩
    have hb : ∃ v ∈ vs, Ty.i32.fits v := by
      by_contra h; exact hb fun v hv => fun h' => h ⟨v, hv, h'⟩
    obtain ⟨a, ha, ha'⟩ := ha
    obtain ⟨b, hb, hb'⟩ := hb
    have := (C79_one_type (vs.map y) ⟨y a, List.mem_map_of_mem ha, y b, List.mem_map_of_mem hb, by
      obtain ⟨x, _, e⟩ := (h2 a ha).2 ha'
      rw [e, (h2 b hb).1 hb']
      simp⟩).1
    rw [this] at hr
    cases hr
  · rintro ⟨_, h | h⟩
    · have e : vs.map y = vs.map fun v => ((.i32, .int v) : Ty × Sc ρ) :=
        List.map_congr_left fun v hv => (h2 v hv).1 (h v hv)
      obtain ⟨r, _, _, hr⟩ := C79_sum_wraps (ρ := ρ) .i32 vs hne h
      rw [e]
      exact ⟨_, hr⟩
    · have e : ∃ xs : List ρ, vs.map y = xs.map fun x => ((.f64, .real x) : Ty × Sc ρ) := by
        have : ∀ l : List Int, (∀ v ∈ l, v ∈ vs) → ∃ xs : List ρ, l.map y = xs.map fun x => ((.f64, .real x) : Ty × Sc ρ) := by
          intro l
          induction l with
          | nil => intro _; exact ⟨[], rfl⟩
          | cons v l ih =>
            intro hl
            obtain ⟨xs, hxs⟩ := ih fun a ha => hl a (by simp [ha])
            obtain ⟨x, _, e⟩ := (h2 v (hl v (by simp))).2 (h v (hl v (by simp)))
            exact ⟨x :: xs, by rw [List.map_cons, e, hxs]; rfl⟩
        exact this vs fun v hv => hv
      obtain ⟨xs, e⟩ := e
      have hx : xs ≠ [] := by
        intro h0; rw [h0] at e; simp at e; exact hne e
      rw [e]
      have hc : commonTy (xs.map fun x => ((.f64, .real x) : Ty × Sc ρ)) = some .f64 :=
        commonTy_eq.2 ⟨by simpa using hx, by simp⟩
      unfold Reduce.sum
      rw [hc]
      dsimp only
      have hl : (xs.map fun x => ((.f64, .real x) : Ty × Sc ρ)).map (·.2) = xs.map Sc.real := by
        simp [Function.comp_def]
      rw [hl]
      cases xs with
      | nil => exact absurd rfl hx
      | cons a xs =>
        rw [List.map_cons, reduce_cons]
        have : ∀ (xs : List ρ) (a : ρ), ∃ z, (xs.map Sc.real).foldlM (add .f64) (.real a) = .ok z := by
          intro xs
          induction xs with
          | nil => intro a; exact ⟨_, rfl⟩
          | cons b xs ih => intro a; exact ih (a + b)
        obtain ⟨z, hz⟩ := this xs a
        rw [hz]
        exact ⟨_, rfl⟩

example : (∃ res, pySum (ρ := Int) ⟨0, some, some⟩ [.int 4294967296, .int (-2147483649)] = .ok res) :=
  ⟨[.real 2147483647, .real 2147483647], by decide +kernel⟩

/-- C79 for python's `sum`: integers that are less than 2^31 in size, as is their sum.  Missing: see
`C79_python_exact`; larger sums are wrong (`C79_sum_wraps`). -/
theorem C79_python_sum_partial [Add ρ] (cv : Conv ρ) (vs : List Int) (hne : vs ≠ []) (hv : ∀ v ∈ vs, Ty.i32.fits v)
    (hs : Ty.i32.fits vs.sum) : pySum cv (vs.map .int) = .ok (vs.map fun _ => .int vs.sum) := by
  unfold pySum
  rw [chooseAll_ok (y := fun v => (.i32, .int v)) hne fun v h => by rw [(C79_choose_sum cv).1 v, if_pos (hv v h)],
    Res.ok_bind]
  exact C79_sum .i32 vs hne hv hs

example (cv : Conv Int) : pySum cv [.int 7, .int (-3), .int 5] = .ok [.int 9, .int 9, .int 9] :=
  C79_python_sum_partial cv [7, -3, 5] (by decide) (by decide) (by decide)

/-- Python floats. -/
theorem C79_python_sum_float [AddMonoid ρ] (cv : Conv ρ) (xs : List ρ) (hne : xs ≠ []) :
    pySum cv (xs.map .float) = .ok (xs.map fun _ => .real xs.sum) := by
  unfold pySum
  rw [chooseAll_ok (y := fun x => (.f64, .real x)) hne fun x _ => (C79_choose_sum cv).2.1 x, Res.ok_bind]
  exact C79_sum_real xs hne

/-- A sum of too large a value, of no complaint: 2^31 - 1 on two ranks. -/
example : pySum (ρ := Int) ⟨0, some, some⟩ [.int 2147483647, .int 2147483647] = .ok [.int (-2), .int (-2)] ∧
    pySum (ρ := Int) ⟨0, some, some⟩ [.int 7, .int (-3)] = .ok [.int 4, .int 4] ∧
    pySum (ρ := Int) ⟨0, some, some⟩ [.float 7, .float (-3)] = .ok [.real 4, .real 4] := by decide +kernel

/-- Numbers that are neither `int` nor `float` (`np.float32`) are truncated by `sum`, without an error. -/
theorem C79_python_truncates [Add ρ] (cv : Conv ρ) (x : ρ) (v : Int) (hx : cv.trunc x = some v) (hv : Ty.i32.fits v) :
    pySum cv [.other x] = .ok [.int v] := by
  unfold pySum
  have := chooseAll_ok (cv := cv) (ts := sumTys) (l := [x]) (x := .other) (y := fun _ => (.i32, .int v)) (by simp)
    (by intro b hb; rw [List.mem_singleton] at hb; subst hb; exact (C79_choose_sum cv).2.2.2 _ v hx hv)
  rw [List.map_singleton] at this
  rw [this, Res.ok_bind]
  rfl

/-- Tenths: 1.5 becomes 1. -/
example : pySum (ρ := Int) ⟨0, fun v => some (10 * v), fun x => some (x / 10)⟩ [.other 15] = .ok [.int 1] := by
  decide +kernel

/-- C79 for python's `bcast`, in full: every rank gets the value of the root, whatever the others pass. -/
def C79_python_bcast_statement : Prop := ∀ (xs : List (PyNum Int)) (root : Nat), root < xs.length →
  ∃ y, pyBcast ⟨0, some, some⟩ xs root = .ok (xs.map fun _ => y)

/-- False: `comm.bcast(3.5 if comm.rank == 0 else 0, 0)`, for any floating point number. -/
theorem C79_python_bcast_undefined (cv : Conv ρ) (x : ρ) (root : Int) : pyBcast cv [.float x, .int 0] root = .ub := by
  have h : chooseAll cv bcastTys [.float x, .int 0] = .ok [(.f64, .real x), (.i32, .int 0)] := by
    simp [chooseAll, choose, firstOf, bcastTys, load, loadInt, loadReal, Ty.fits, Ty.lo, Ty.hi]
  unfold pyBcast
  rw [h, Res.ok_bind]
  rfl

theorem C79_python_bcast_false : ¬ C79_python_bcast_statement := by
  intro h
  obtain ⟨y, hy⟩ := h [.float 3, .int 0] 0 (by simp)
  rw [C79_python_bcast_undefined] at hy
  cases hy

/-- C79 for python's `bcast` when all ranks pass `float`s or all pass integers less than 2^31 in size. -/
theorem C79_python_bcast_partial (cv : Conv ρ) (root : Nat) :
    (∀ vs : List Int, (∀ v ∈ vs, Ty.i32.fits v) → (hr : root < vs.length) →
      pyBcast cv (vs.map .int) root = .ok (vs.map fun _ => .int vs[root])) ∧
    ∀ xs : List ρ, (hr : root < xs.length) →
      pyBcast cv (xs.map .float) root = .ok (xs.map fun _ => .real xs[root]) := by
  constructor
  · intro vs hv hr
    unfold pyBcast
    have hne : vs ≠ [] := by intro h; rw [h] at hr; simp at hr
    rw [chooseAll_ok (y := fun v => (.i32, .int v)) hne fun v h => by
      rw [C79_choose_int cv v (Or.inr rfl), if_pos (hv v h)], Res.ok_bind]
    have := C79_bcast (ρ := ρ) .i32 (vs.map .int) root (by simpa using hr)
    simpa [Function.comp_def] using this
  · intro xs hr
    unfold pyBcast
    have hne : xs ≠ [] := by intro h; rw [h] at hr; simp at hr
    rw [chooseAll_ok (y := fun x => (.f64, .real x)) hne fun x _ => rfl, Res.ok_bind]
    have := C79_bcast (ρ := ρ) .f64 (xs.map .real) root (by simpa using hr)
    simpa [Function.comp_def] using this

example : pyBcast (ρ := Int) ⟨0, some, some⟩ [.int 3, .int 4, .int 5] 2 = .ok [.int 5, .int 5, .int 5] := by
  decide +kernel

/-- C79 for python's `cumulative_sum` of integers. -/
theorem C79_python_scan_partial [Add ρ] (cv : Conv ρ) (vs : List Int) (hne : vs ≠ []) (hv : ∀ v ∈ vs, Ty.i32.fits v)
    (hs : ∀ r, Ty.i32.fits (vs.take (r + 1)).sum) :
    pyScan cv (vs.map .int) = .ok ((List.range vs.length).map fun r => .int (vs.take (r + 1)).sum) := by
  unfold pyScan
  rw [chooseAll_ok (y := fun v => (.i32, .int v)) hne fun v h => by
    rw [C79_choose_int cv v (Or.inl rfl), if_pos (hv v h)], Res.ok_bind]
  exact C79_scan_int .i32 vs hne hv hs

example : pyScan (ρ := Int) ⟨0, some, some⟩ [.int 3, .int 4, .int 5] = .ok [.int 3, .int 7, .int 12] := by
  decide +kernel

/-! ### The factory -/

/-- Number of processes of what is passed. -/
def CommArg.size? : CommArg → Option Nat
  | .nothing => some 1
  | .own _ n => some n
  | .mpi4py _ n => some n
  | .else_ => none

/-- `muGrid.Communicator(c)` gives a communicator with the number of processes of `c`, and the same group of
processes if there is more than one; it throws exactly for foreign objects and for several processes that muGrid or
mpi4py does not support. -/
theorem C79_factory (hasMpi loaded : Bool) (self : Nat) (a : CommArg) :
    (∀ h n, factory hasMpi loaded self a = .ok (h, n) → CommArg.size? a = some n ∧
      (n ≠ 1 → a = .own h n ∨ a = .mpi4py h n)) ∧
    (factory hasMpi loaded self a = .throw .runtimeError ↔
      a = .else_ ∨ ∃ h n, a = .mpi4py h n ∧ n ≠ 1 ∧ ¬ (hasMpi = true ∧ loaded = true)) ∧
    factory hasMpi loaded self a ≠ .ub := by
  cases a with
  | nothing => simp [factory, CommArg.size?]
  | own h n =>
    refine ⟨?_, by simp [factory], by simp [factory]⟩
    intro h' n' e
    cases e
    exact ⟨rfl, fun _ => Or.inl rfl⟩
  | else_ => simp [factory]
  | mpi4py h n =>
    unfold factory
    by_cases hn : n = 1
    · subst hn
      refine ⟨?_, by simp, by simp⟩
      intro h' n' e
      simp only [if_true] at e
      cases e
      exact ⟨rfl, fun h => absurd rfl h⟩
    · simp only [if_neg hn]
      cases hasMpi <;> cases loaded <;> simp [CommArg.size?, hn]

end Verif.Props
