import Mathlib.Data.List.Lex
import Verif.Lemmas.Units
/-
Properties C24–C27 of units and physics domains.

`e.rat` is the rational number an exponent stands for, `e.Reduced`: lowest terms, positive
denominator, both members within `int`.
-/
namespace Verif.Props
open Verif Verif.Units

/-! ## C24 -/

/-- **C24** `compute_gcd` returns the greatest common divisor: it divides both arguments, and every
common divisor divides it.  (Termination: `gcdWorker` is accepted as a total function.)  The least
integer, whose absolute value is not representable, is excluded. -/
theorem C24_gcd {a b : Int} (ha : a ≠ -2147483648) (hb : b ≠ -2147483648) :
    ∃ g, computeGcd a b = .ok g ∧ 0 ≤ g ∧ g ∣ a ∧ g ∣ b ∧ (∀ d, d ∣ a → d ∣ b → d ∣ g) ∧
      (g = 0 ↔ a = 0 ∧ b = 0) := by
  refine ⟨gcdWorker a.natAbs b.natAbs, ?_, by omega, ?_, ?_, ?_, ?_⟩
  · unfold computeGcd; rw [if_neg (by simp [ha, hb])]
  all_goals rw [gcdWorker_eq]
  · exact Int.natCast_dvd.2 (Nat.gcd_dvd_left _ _)
  · exact Int.natCast_dvd.2 (Nat.gcd_dvd_right _ _)
  · intro d h1 h2
    rw [← Int.natAbs_dvd]
    exact Int.natCast_dvd_natCast.2 (Nat.dvd_gcd (Int.natAbs_dvd_natAbs.2 h1) (Int.natAbs_dvd_natAbs.2 h2))
  · rw [Int.natCast_eq_zero, Nat.gcd_eq_zero_iff, Int.natAbs_eq_zero, Int.natAbs_eq_zero]

example := C24_gcd (a := -84) (b := 36) (by decide) (by decide)

/-- The least integer is not covered: its absolute value does not exist. -/
theorem C24_least (b : Int) : computeGcd (-2147483648) b = .ub := by
  unfold computeGcd; rw [if_pos (Or.inl rfl)]

example : computeGcd (-84) 36 = .ok 12 ∧ computeGcd 0 0 = .ok 0 := by decide +kernel

/-! ## C25 -/

/-- Exponents that programs can compute from integers: constructor, product, quotient, sum. -/
inductive Computed : UnitExponent → Prop
  | mk {n d : Int} {e : UnitExponent} : InInt n → InInt d → UnitExponent.mk' n d = .ok e → Computed e
  | mul {a b e : UnitExponent} : Computed a → Computed b → a.mul b = .ok e → Computed e
  | div {a b e : UnitExponent} : Computed a → Computed b → a.div b = .ok e → Computed e
  | add {a b e : UnitExponent} : Computed a → Computed b → a.add b = .ok e → Computed e

/-- **C25** Every exponent that was computed is in lowest terms with positive denominator. -/
theorem C25_reduced {e : UnitExponent} (h : Computed e) : e.Reduced := by
  induction h with
  | mk hn hd h => exact (UnitExponent.mk'_ok hn hd h).2.1
  | mul _ _ h ha hb => exact (UnitExponent.mul_ok ha hb h).1
  | div _ _ h ha hb => exact (UnitExponent.div_ok ha hb h).1
  | add _ _ h ha _ =>
    unfold UnitExponent.add at h
    split at h
    · simp at h
    · simp only [Res.ok.injEq] at h; subst h; exact ha

example : (⟨-3, 2⟩ : UnitExponent).Reduced :=
  C25_reduced (.mk (n := 6) (d := -4) (by decide) (by decide) (by decide +kernel))

/-- **C25** Construction: denotes numerator/denominator; zero denominators are rejected. -/
theorem C25_construct {n d : Int} (hn : InInt n) (hd : InInt d) :
    (d = 0 → UnitExponent.mk' n d = .throw .unitError) ∧
    (d ≠ 0 → n ≠ -2147483648 → d ≠ -2147483648 →
      ∃ e, UnitExponent.mk' n d = .ok e ∧ Computed e ∧ e.rat = (n : ℚ) / (d : ℚ)) := by
  constructor
  · intro h; unfold UnitExponent.mk'; rw [if_pos h]
  · intro h0 h1 h2
    obtain ⟨e, he⟩ := UnitExponent.mk'_succeeds h0 h1 h2
    exact ⟨e, he, .mk hn hd he, (UnitExponent.mk'_ok hn hd he).2.2⟩

example := (C25_construct (n := 6) (d := -4) (by decide) (by decide)).2 (by decide) (by decide) (by decide)

/-- **C25** Product and quotient (of units) are sum and difference of the rationals, whenever no
intermediate result leaves `int`; they never throw. -/
theorem C25_product_partial {a b : UnitExponent} (ha : Computed a) (hb : Computed b) :
    (a.mul b = .ub ∨ ∃ e, a.mul b = .ok e ∧ e.rat = a.rat + b.rat) ∧
    (a.div b = .ub ∨ ∃ e, a.div b = .ok e ∧ e.rat = a.rat - b.rat) := by
  have ra := C25_reduced ha
  have rb := C25_reduced hb
  have hne : a.den * b.den ≠ 0 := (mul_pos ra.pos rb.pos).ne'
  have hmk : ∀ n d e, d ≠ 0 → UnitExponent.mk' n d ≠ .throw e := by
    intro n d e hd h
    unfold UnitExponent.mk' UnitExponent.reduce computeGcd at h
    rw [if_neg hd] at h
    split at h
    · simp at h
    · simp only [Res.ok_bind] at h
      split at h <;> (split at h <;> simp at h)
  have hchk : ∀ x, chk x = .ub ∨ chk x = .ok x := by
    intro x; unfold chk; split <;> simp
  constructor
  · rcases hx : a.mul b with e | e | _
    · exact Or.inr ⟨e, rfl, (UnitExponent.mul_ok ra rb hx).2⟩
    · exfalso
      unfold UnitExponent.mul at hx
      rcases hchk (a.num * b.den) with h | h <;> rw [h] at hx <;> simp only [Res.ok_bind, Res.ub_bind] at hx
      · cases hx
      rcases hchk (b.num * a.den) with h | h <;> rw [h] at hx <;> simp only [Res.ok_bind, Res.ub_bind] at hx
      · cases hx
      rcases hchk (a.num * b.den + b.num * a.den) with h | h <;> rw [h] at hx <;>
        simp only [Res.ok_bind, Res.ub_bind] at hx
      · cases hx
      rcases hchk (a.den * b.den) with h | h <;> rw [h] at hx <;> simp only [Res.ok_bind, Res.ub_bind] at hx
      · cases hx
      exact hmk _ _ _ hne hx
    · exact Or.inl rfl
  · rcases hx : a.div b with e | e | _
    · exact Or.inr ⟨e, rfl, (UnitExponent.div_ok ra rb hx).2⟩
    · exfalso
      unfold UnitExponent.div at hx
      rcases hchk (a.num * b.den) with h | h <;> rw [h] at hx <;> simp only [Res.ok_bind, Res.ub_bind] at hx
      · cases hx
      rcases hchk (b.num * a.den) with h | h <;> rw [h] at hx <;> simp only [Res.ok_bind, Res.ub_bind] at hx
      · cases hx
      rcases hchk (a.num * b.den - b.num * a.den) with h | h <;> rw [h] at hx <;>
        simp only [Res.ok_bind, Res.ub_bind] at hx
      · cases hx
      rcases hchk (a.den * b.den) with h | h <;> rw [h] at hx <;> simp only [Res.ok_bind, Res.ub_bind] at hx
      · cases hx
      exact hmk _ _ _ hne hx
    · exact Or.inl rfl

/-- **C25** No overflow for numerators and denominators up to 32767. -/
theorem C25_no_overflow {a b : UnitExponent} (ha : Computed a) (hb : Computed b) (sa : a.Small)
    (sb : b.Small) : a.mul b ≠ .ub ∧ a.div b ≠ .ub ∧ a.lt b ≠ .ub := by
  obtain ⟨e, he⟩ := UnitExponent.mul_small (C25_reduced ha) (C25_reduced hb) sa sb
  obtain ⟨f, hf⟩ := UnitExponent.div_small (C25_reduced ha) (C25_reduced hb) sa sb
  refine ⟨by rw [he]; simp, by rw [hf]; simp, ?_⟩
  unfold UnitExponent.lt
  rw [hf, Res.ok_bind]; simp

/-- **C25** Equality is equality of the rationals. -/
theorem C25_equality {a b : UnitExponent} (ha : Computed a) (hb : Computed b) :
    a = b ↔ a.rat = b.rat :=
  ⟨fun h => by rw [h], (C25_reduced ha).ext (C25_reduced hb)⟩

/-- **C25** The order is the order of the rationals. -/
theorem C25_order_partial {a b : UnitExponent} (ha : Computed a) (hb : Computed b) :
    a.lt b = .ub ∨ a.lt b = .ok (decide (a.rat < b.rat)) := by
  rcases (C25_product_partial ha hb).2 with h | ⟨e, h, _⟩
  · left; unfold UnitExponent.lt; rw [h]; rfl
  · right
    have hlt : a.lt b = .ok (decide (e.num < 0)) := by unfold UnitExponent.lt; rw [h]; rfl
    have := UnitExponent.lt_ok (C25_reduced ha) (C25_reduced hb) hlt
    rw [hlt]
    congr 1
    rw [Bool.eq_iff_iff, this, decide_eq_true_iff]

/-- C25 as documented: no exception for overflow or for exponents made by the default constructor. -/
def C25_statement : Prop :=
  (∀ n d, InInt n → InInt d → d ≠ 0 → ∃ e, UnitExponent.mk' n d = .ok e ∧ e.rat = (n : ℚ) / (d : ℚ)) ∧
  (∀ a b, Computed a → Computed b → ∃ e, a.mul b = .ok e ∧ e.rat = a.rat + b.rat) ∧
  UnitExponent.default'.Reduced

/-- The least integer as numerator. -/
theorem C25_false : ¬ C25_statement := by
  rintro ⟨h, _, _⟩
  obtain ⟨e, he, _⟩ := h (-2147483648) 1 (by decide) (by decide) (by decide)
  revert he
  have : UnitExponent.mk' (-2147483648) 1 = .ub := by decide +kernel
  rw [this]; simp

/-- **Finding.**  Exponents 1/65537 and 1/65539 are fine; their product overflows, and so does their
comparison.  The default-constructed exponent is 0/0: arithmetic with it throws, it is not reduced. -/
theorem C25_limits :
    UnitExponent.mk' 1 65537 = .ok ⟨1, 65537⟩ ∧ UnitExponent.mk' 1 65539 = .ok ⟨1, 65539⟩ ∧
    (⟨1, 65537⟩ : UnitExponent).mul ⟨1, 65539⟩ = .ub ∧ (⟨1, 65537⟩ : UnitExponent).lt ⟨1, 65539⟩ = .ub ∧
    ¬ UnitExponent.default'.Reduced ∧
    UnitExponent.default'.mul ⟨1, 2⟩ = .throw .unitError ∧
    UnitExponent.default'.lt ⟨1, 2⟩ = .throw .unitError := by
  refine ⟨by decide +kernel, by decide +kernel, by decide +kernel, by decide +kernel, ?_,
    by decide +kernel, by decide +kernel⟩
  intro h
  exact absurd h.pos (by decide)

/-- 6/(-4) is -3/2; its product with 1/2 is -1. -/
example : UnitExponent.mk' 6 (-4) = .ok ⟨-3, 2⟩ ∧ (⟨-3, 2⟩ : UnitExponent).mul ⟨1, 2⟩ = .ok ⟨-1, 1⟩ ∧
    (⟨-3, 2⟩ : UnitExponent).lt ⟨1, 2⟩ = .ok true := by decide +kernel
example : Computed ⟨-3, 2⟩ := .mk (n := 6) (d := -4) (by decide) (by decide) (by decide +kernel)
example : UnitExponent.Small ⟨-3, 2⟩ := by unfold UnitExponent.Small; decide

/-! ## C26 -/

/-- Units as programs build them: seven computed exponents. -/
structure Proper (u : MUnit) : Prop where
  length : u.units.length = 7
  computed : ∀ e ∈ u.units, Computed e

/-- The exponents as a vector of rationals. -/
def vec (u : MUnit) : List ℚ := u.units.map UnitExponent.rat

theorem zipOp_spec {f : UnitExponent → UnitExponent → Res UnitExponent} {g : ℚ → ℚ → ℚ}
    (hf : ∀ a b e, Computed a → Computed b → f a b = .ok e → Computed e ∧ e.rat = g a.rat b.rat) :
    ∀ {as bs cs : List UnitExponent}, as.length = bs.length → (∀ e ∈ as, Computed e) →
      (∀ e ∈ bs, Computed e) → MUnit.zipOp f as bs = .ok cs →
      cs.length = as.length ∧ (∀ e ∈ cs, Computed e) ∧
      cs.map UnitExponent.rat = List.zipWith g (as.map UnitExponent.rat) (bs.map UnitExponent.rat)
  | [], [], cs, _, _, _, h => by
      simp only [MUnit.zipOp, Res.ok.injEq] at h; subst h; simp
  | a :: as, b :: bs, cs, hl, ha, hb, h => by
      unfold MUnit.zipOp at h
      obtain ⟨c, hc, h⟩ := Res.bind_eq_ok.1 h
      obtain ⟨cs', hcs, h⟩ := Res.bind_eq_ok.1 h
      simp only [Res.pure_eq, Res.ok.injEq] at h
      subst h
      obtain ⟨h1, h2⟩ := hf a b c (ha a (by simp)) (hb b (by simp)) hc
      obtain ⟨k1, k2, k3⟩ := zipOp_spec hf (by simpa using hl) (fun e he => ha e (by simp [he]))
        (fun e he => hb e (by simp [he])) hcs
      refine ⟨by simp [k1], ?_, by simp [h2, k3]⟩
      intro e he
      rcases List.mem_cons.1 he with rfl | he
      · exact h1
      · exact k2 e he

theorem mul_spec' (a b e : UnitExponent) (ha : Computed a) (hb : Computed b) (h : a.mul b = .ok e) :
    Computed e ∧ e.rat = a.rat + b.rat :=
  ⟨.mul ha hb h, (UnitExponent.mul_ok (C25_reduced ha) (C25_reduced hb) h).2⟩

theorem div_spec' (a b e : UnitExponent) (ha : Computed a) (hb : Computed b) (h : a.div b = .ok e) :
    Computed e ∧ e.rat = a.rat - b.rat :=
  ⟨.div ha hb h, (UnitExponent.div_ok (C25_reduced ha) (C25_reduced hb) h).2⟩

/-- **C26** A product adds the exponent vectors. -/
theorem C26_mul {u v w : MUnit} (hu : Proper u) (hv : Proper v) (h : u.mul v = .ok w) :
    Proper w ∧ w.tag = u.tag ∧ w.tag = v.tag ∧ vec w = List.zipWith (· + ·) (vec u) (vec v) := by
  unfold MUnit.mul at h
  split at h
  · simp at h
  rename_i ht
  obtain ⟨us, hus, h⟩ := Res.bind_eq_ok.1 h
  simp only [Res.pure_eq, Res.ok.injEq] at h
  subst h
  obtain ⟨h1, h2, h3⟩ := zipOp_spec mul_spec' (by rw [hu.length, hv.length]) hu.computed hv.computed hus
  exact ⟨⟨by rw [h1, hu.length], h2⟩, rfl, not_not.1 ht, h3⟩

/-- **C26** A quotient subtracts them. -/
theorem C26_div {u v w : MUnit} (hu : Proper u) (hv : Proper v) (h : u.div v = .ok w) :
    Proper w ∧ w.tag = u.tag ∧ w.tag = v.tag ∧ vec w = List.zipWith (· - ·) (vec u) (vec v) := by
  unfold MUnit.div at h
  split at h
  · simp at h
  rename_i ht
  obtain ⟨us, hus, h⟩ := Res.bind_eq_ok.1 h
  simp only [Res.pure_eq, Res.ok.injEq] at h
  subst h
  obtain ⟨h1, h2, h3⟩ := zipOp_spec div_spec' (by rw [hu.length, hv.length]) hu.computed hv.computed hus
  exact ⟨⟨by rw [h1, hu.length], h2⟩, rfl, not_not.1 ht, h3⟩

/-- **C26** A unit is determined by its vector and tag. -/
theorem C26_ext {u v : MUnit} (hu : Proper u) (hv : Proper v) (ht : u.tag = v.tag)
    (h : vec u = vec v) : u = v := by
  have : ∀ {as bs : List UnitExponent}, (∀ e ∈ as, Computed e) → (∀ e ∈ bs, Computed e) →
      as.map UnitExponent.rat = bs.map UnitExponent.rat → as = bs := by
    intro as
    induction as with
    | nil => intro bs _ _ h; cases bs with | nil => rfl | cons => simp at h
    | cons a as ih =>
      intro bs ha hb h
      cases bs with
      | nil => simp at h
      | cons b bs =>
        simp only [List.map_cons, List.cons.injEq] at h
        rw [(C25_equality (ha a (by simp)) (hb b (by simp))).2 h.1,
          ih (fun e he => ha e (by simp [he])) (fun e he => hb e (by simp [he])) h.2]
  cases u; cases v
  simp only [MUnit.mk.injEq]
  exact ⟨this hu.computed hv.computed h, ht⟩

theorem exp_mul_comm (a b : UnitExponent) : a.mul b = b.mul a := by
  have hadd : ∀ p q : Int, chk (p + q) = chk (q + p) := fun p q => by rw [add_comm]
  unfold UnitExponent.mul
  rw [mul_comm a.den b.den]
  rcases hp : chk (a.num * b.den) with p | e | _ <;> rcases hq : chk (b.num * a.den) with q | e' | _ <;>
    simp only [Res.ok_bind, Res.ub_bind, Res.throw_bind]
  · rw [hadd]
  all_goals
    first
    | rfl
    | (exfalso; unfold chk at hp; split at hp <;> simp at hp; done)
    | (exfalso; unfold chk at hq; split at hq <;> simp at hq; done)

theorem zipOp_comm {f : UnitExponent → UnitExponent → Res UnitExponent} (hf : ∀ a b, f a b = f b a) :
    ∀ as bs : List UnitExponent, MUnit.zipOp f as bs = MUnit.zipOp f bs as
  | [], [] => rfl
  | [], _ :: _ => rfl
  | _ :: _, [] => rfl
  | a :: as, b :: bs => by
      unfold MUnit.zipOp
      rw [hf a b, zipOp_comm hf as bs]

/-- **C26** Commutativity (including whether there is overflow or an exception). -/
theorem C26_comm (u v : MUnit) : u.mul v = v.mul u := by
  unfold MUnit.mul
  by_cases h : u.tag = v.tag
  · rw [if_neg (not_not.2 h), if_neg (not_not.2 h.symm), h, zipOp_comm exp_mul_comm]
  · rw [if_pos h, if_pos (Ne.symm h)]

theorem zipWith_assoc {β : Type} {g : β → β → β} (hg : ∀ a b c, g (g a b) c = g a (g b c)) :
    ∀ x y z : List β, List.zipWith g (List.zipWith g x y) z = List.zipWith g x (List.zipWith g y z)
  | [], _, _ => by simp
  | _ :: _, [], _ => by simp
  | _ :: _, _ :: _, [] => by simp
  | a :: x, b :: y, c :: z => by simp [hg, zipWith_assoc hg x y z]

/-- **C26** Associativity. -/
theorem C26_assoc {u v w uv vw l r : MUnit} (hu : Proper u) (hv : Proper v) (hw : Proper w)
    (h1 : u.mul v = .ok uv) (h2 : uv.mul w = .ok l) (h3 : v.mul w = .ok vw) (h4 : u.mul vw = .ok r) :
    l = r := by
  obtain ⟨p1, t1, _, e1⟩ := C26_mul hu hv h1
  obtain ⟨p2, t2, _, e2⟩ := C26_mul p1 hw h2
  obtain ⟨p3, t3, _, e3⟩ := C26_mul hv hw h3
  obtain ⟨p4, t4, _, e4⟩ := C26_mul hu p3 h4
  refine C26_ext p2 p4 (by rw [t2, t1, t4]) ?_
  rw [e2, e1, e4, e3, zipWith_assoc (fun a b c => add_assoc a b c)]

theorem computed_of_reduced {e : UnitExponent} (h : e.Reduced) (hn : e.num ≠ -2147483648) : Computed e := by
  have hd := h.pos
  obtain ⟨e', he'⟩ := UnitExponent.mk'_succeeds (n := e.num) (d := e.den) (by omega) hn (by omega)
  have hr := (UnitExponent.mk'_ok h.num h.den he').2
  rw [hr.1.ext h hr.2] at he'
  exact .mk h.num h.den he'

/-- The exponents of the examples: -3/2 and 1/2. -/
theorem exHalves : Computed ⟨-3, 2⟩ ∧ Computed ⟨1, 2⟩ :=
  ⟨.mk (n := 6) (d := -4) (by decide) (by decide) (by decide +kernel),
    .mk (n := 1) (d := 2) (by decide) (by decide) (by decide +kernel)⟩

example := C25_product_partial exHalves.1 exHalves.2
example := C25_no_overflow exHalves.1 exHalves.2 (by unfold UnitExponent.Small; decide)
  (by unfold UnitExponent.Small; decide)
example := C25_equality exHalves.1 exHalves.2
example := C25_order_partial exHalves.1 exHalves.2

theorem Computed.num_ne {e : UnitExponent} (h : Computed e) : e.num ≠ -2147483648 := by
  have key : ∀ {n d : Int} {e : UnitExponent}, InInt n → InInt d → UnitExponent.mk' n d = .ok e →
      e.num ≠ -2147483648 := by
    intro n d e hn hd h
    obtain ⟨h0, hr, hrat⟩ := UnitExponent.mk'_ok hn hd h
    have hne : n ≠ -2147483648 := by
      rintro rfl
      unfold UnitExponent.mk' UnitExponent.reduce computeGcd at h
      rw [if_neg h0, if_pos (Or.inl rfl)] at h
      simp at h
    intro hm
    have e1 : (e.den : ℚ) ≠ 0 := by exact_mod_cast hr.pos.ne'
    have e2 : (d : ℚ) ≠ 0 := by exact_mod_cast h0
    unfold UnitExponent.rat at hrat
    rw [div_eq_div_iff e1 e2] at hrat
    have hz : e.num * d = n * e.den := by exact_mod_cast hrat
    have hdvd : e.num.natAbs ∣ n.natAbs := by
      have h1 : e.num.natAbs ∣ n.natAbs * e.den.natAbs := by
        rw [← Int.natAbs_mul, ← hz, Int.natAbs_mul]; exact Nat.dvd_mul_right _ _
      exact hr.coprime.dvd_of_dvd_mul_right h1
    have hn0 : n ≠ 0 := by
      rintro rfl
      rw [zero_mul, hm] at hz
      omega
    have := Nat.le_of_dvd (by omega) hdvd
    unfold InInt at hn
    omega
  induction h with
  | mk hn hd h => exact key hn hd h
  | mul _ _ h _ _ =>
    unfold UnitExponent.mul at h
    obtain ⟨p, hp, h⟩ := Res.bind_eq_ok.1 h
    obtain ⟨q, hq, h⟩ := Res.bind_eq_ok.1 h
    obtain ⟨n, hn, h⟩ := Res.bind_eq_ok.1 h
    obtain ⟨d, hd, h⟩ := Res.bind_eq_ok.1 h
    rw [chk_eq_ok] at hn hd
    exact key (hn.2 ▸ hn.1) (hd.2 ▸ hd.1) h
  | div _ _ h _ _ =>
    unfold UnitExponent.div at h
    obtain ⟨p, hp, h⟩ := Res.bind_eq_ok.1 h
    obtain ⟨q, hq, h⟩ := Res.bind_eq_ok.1 h
    obtain ⟨n, hn, h⟩ := Res.bind_eq_ok.1 h
    obtain ⟨d, hd, h⟩ := Res.bind_eq_ok.1 h
    rw [chk_eq_ok] at hn hd
    exact key (hn.2 ▸ hn.1) (hd.2 ▸ hd.1) h
  | add _ _ h ih _ =>
    unfold UnitExponent.add at h
    split at h
    · simp at h
    · simp only [Res.ok.injEq] at h; subst h; exact ih

theorem zero_computed : Computed ⟨0, 1⟩ := .mk (n := 0) (d := 1) (by decide) (by decide) (by decide +kernel)

theorem unitless_proper (tag : Int) : Proper (MUnit.unitless tag) := by
  refine ⟨by simp [MUnit.unitless], ?_⟩
  intro e he
  rw [(List.mem_replicate.1 he).2]
  exact zero_computed

/-- **C26** The pure number with the same tag is neutral; multiplying by it never fails. -/
theorem C26_one {u : MUnit} (hu : Proper u) : u.mul (MUnit.unitless u.tag) = .ok u := by
  have hexp : ∀ e : UnitExponent, Computed e → e.mul ⟨0, 1⟩ = .ok e := by
    intro e he
    have hr := C25_reduced he
    have hm := he.num_ne
    have hpos := hr.pos
    obtain ⟨e', he'⟩ := UnitExponent.mk'_succeeds (n := e.num) (d := e.den) (by omega) hm (by omega)
    have hr' := (UnitExponent.mk'_ok hr.num hr.den he').2
    rw [hr'.1.ext hr hr'.2] at he'
    unfold UnitExponent.mul
    simp only [mul_one, zero_mul]
    rw [chk_of hr.num, Res.ok_bind, chk_of (by decide), Res.ok_bind, add_zero, chk_of hr.num, Res.ok_bind,
      chk_of hr.den, Res.ok_bind]
    exact he'
  have hz : ∀ (us : List UnitExponent) (n : Nat), us.length = n → (∀ e ∈ us, Computed e) →
      MUnit.zipOp UnitExponent.mul us (List.replicate n ⟨0, 1⟩) = .ok us := by
    intro us
    induction us with
    | nil => intro n hn _; simp at hn; subst hn; rfl
    | cons a us ih =>
      intro n hn h
      obtain ⟨n, rfl⟩ : ∃ m, n = m + 1 := ⟨n - 1, by simp at hn; omega⟩
      rw [List.replicate_succ]
      unfold MUnit.zipOp
      rw [hexp a (h a (by simp)), Res.ok_bind, ih n (by simpa using hn) (fun e he => h e (by simp [he]))]
      rfl
  unfold MUnit.mul
  rw [if_neg (by simp [MUnit.unitless])]
  unfold MUnit.unitless
  rw [hz u.units 7 hu.length hu.computed]
  rfl

theorem zipWith_sub_add : ∀ {x y : List ℚ}, x.length = y.length →
    List.zipWith (· + ·) (List.zipWith (· - ·) x y) y = x
  | [], [], _ => rfl
  | a :: x, b :: y, h => by simp [zipWith_sub_add (x := x) (y := y) (by simpa using h)]

/-- **C26** Division undoes multiplication and conversely, and a unit divided by itself is the pure
number. -/
theorem C26_inverse {u v q w : MUnit} (hu : Proper u) (hv : Proper v) :
    (u.div v = .ok q → q.mul v = .ok w → w = u) ∧
    (u.mul v = .ok q → q.div v = .ok w → w = u) ∧
    (u.div u = .ok q → q = MUnit.unitless u.tag) := by
  have hl : (vec u).length = (vec v).length := by simp [vec, hu.length, hv.length]
  refine ⟨?_, ?_, ?_⟩
  · intro h1 h2
    obtain ⟨p1, t1, _, e1⟩ := C26_div hu hv h1
    obtain ⟨p2, t2, _, e2⟩ := C26_mul p1 hv h2
    refine C26_ext p2 hu (by rw [t2, t1]) ?_
    rw [e2, e1]
    exact zipWith_sub_add hl
  · intro h1 h2
    obtain ⟨p1, t1, _, e1⟩ := C26_mul hu hv h1
    obtain ⟨p2, t2, _, e2⟩ := C26_div p1 hv h2
    refine C26_ext p2 hu (by rw [t2, t1]) ?_
    rw [e2, e1]
    have : ∀ {x y : List ℚ}, x.length = y.length →
        List.zipWith (· - ·) (List.zipWith (· + ·) x y) y = x := by
      intro x
      induction x with
      | nil => intro y _; simp
      | cons a x ih =>
        intro y h
        cases y with
        | nil => simp at h
        | cons b y => simp [ih (y := y) (by simpa using h)]
    exact this hl
  · intro h1
    obtain ⟨p1, t1, _, e1⟩ := C26_div hu hu h1
    refine C26_ext p1 (unitless_proper _) t1 ?_
    rw [e1]
    have : ∀ {x : List ℚ}, List.zipWith (· - ·) x x = List.replicate x.length 0 := by
      intro x
      induction x with
      | nil => rfl
      | cons a x ih => simp [List.replicate_succ]
    rw [this]
    simp [vec, hu.length, MUnit.unitless, UnitExponent.rat]

/-- **C26** Addition (and subtraction) succeeds exactly for equal units, and returns that unit. -/
theorem C26_add {u v : MUnit} (h : u.units.length = v.units.length) :
    u.add v = if u = v then .ok u else .throw .unitError := by
  have hz : ∀ as bs : List UnitExponent, as.length = bs.length →
      MUnit.zipOp UnitExponent.add as bs = if as = bs then .ok as else .throw .unitError := by
    intro as
    induction as with
    | nil => intro bs hl; cases bs with | nil => rfl | cons => simp at hl
    | cons a as ih =>
      intro bs hl
      cases bs with
      | nil => simp at hl
      | cons b bs =>
        unfold MUnit.zipOp
        rw [ih bs (by simpa using hl)]
        unfold UnitExponent.add
        by_cases hab : a = b
        · subst hab
          rw [if_neg (by simp), Res.ok_bind]
          by_cases hbs : as = bs
          · subst hbs; simp
          · simp [hbs]
        · simp [hab]
  unfold MUnit.add
  by_cases ht : u.tag = v.tag
  · rw [if_neg (not_not.2 ht), hz _ _ h]
    by_cases hu : u.units = v.units
    · have : u = v := by cases u; cases v; simp_all
      rw [if_pos hu, if_pos this]; rfl
    · rw [if_neg hu, if_neg (fun he => hu (by rw [he]))]; rfl
  · rw [if_pos ht, if_neg (fun he => ht (by rw [he]))]

/-- **C26** Different tags: every arithmetic operation raises `UnitError`. -/
theorem C26_tags {u v : MUnit} (h : u.tag ≠ v.tag) :
    u.add v = .throw .unitError ∧ u.mul v = .throw .unitError ∧ u.div v = .throw .unitError := by
  unfold MUnit.add MUnit.mul MUnit.div
  simp only [if_pos h, and_self]

/-- Whether no operation on exponents of two units overflows. -/
def SmallUnit (u : MUnit) : Prop := ∀ e ∈ u.units, e.Small

/-- **C26** Existence of products and quotients: same tag, exponents of moderate size. -/
theorem C26_defined {u v : MUnit} (hu : Proper u) (hv : Proper v) (ht : u.tag = v.tag)
    (su : SmallUnit u) (sv : SmallUnit v) : (∃ w, u.mul v = .ok w) ∧ ∃ w, u.div v = .ok w := by
  have hz : ∀ (f : UnitExponent → UnitExponent → Res UnitExponent),
      (∀ a b, Computed a → Computed b → a.Small → b.Small → ∃ e, f a b = .ok e) →
      ∀ as bs : List UnitExponent, (∀ e ∈ as, Computed e ∧ e.Small) → (∀ e ∈ bs, Computed e ∧ e.Small) →
        ∃ cs, MUnit.zipOp f as bs = .ok cs := by
    intro f hf as
    induction as with
    | nil => intro bs _ _; cases bs <;> exact ⟨_, rfl⟩
    | cons a as ih =>
      intro bs ha hb
      cases bs with
      | nil => exact ⟨_, rfl⟩
      | cons b bs =>
        obtain ⟨e, he⟩ := hf a b (ha a (by simp)).1 (hb b (by simp)).1 (ha a (by simp)).2 (hb b (by simp)).2
        obtain ⟨cs, hcs⟩ := ih bs (fun e he => ha e (by simp [he])) (fun e he => hb e (by simp [he]))
        refine ⟨e :: cs, ?_⟩
        unfold MUnit.zipOp
        rw [he, Res.ok_bind, hcs, Res.ok_bind]; rfl
  have h1 : ∀ e ∈ u.units, Computed e ∧ e.Small := fun e he => ⟨hu.computed e he, su e he⟩
  have h2 : ∀ e ∈ v.units, Computed e ∧ e.Small := fun e he => ⟨hv.computed e he, sv e he⟩
  constructor
  · obtain ⟨cs, hcs⟩ := hz UnitExponent.mul
      (fun a b ha hb => UnitExponent.mul_small (C25_reduced ha) (C25_reduced hb)) _ _ h1 h2
    exact ⟨⟨cs, u.tag⟩, by unfold MUnit.mul; rw [if_neg (not_not.2 ht), hcs]; rfl⟩
  · obtain ⟨cs, hcs⟩ := hz UnitExponent.div
      (fun a b ha hb => UnitExponent.div_small (C25_reduced ha) (C25_reduced hb)) _ _ h1 h2
    exact ⟨⟨cs, u.tag⟩, by unfold MUnit.div; rw [if_neg (not_not.2 ht), hcs]; rfl⟩

theorem base_proper (i : Nat) (tag : Int) : Proper (MUnit.base i tag) := by
  refine ⟨by simp [MUnit.base], ?_⟩
  intro e he
  rcases List.mem_or_eq_of_mem_set he with h | rfl
  · rw [(List.mem_replicate.1 h).2]; exact zero_computed
  · exact .mk (n := 1) (d := 1) (by decide) (by decide) (by decide +kernel)

/-- Length, mass and time, and products and quotients of them. -/
example := C26_mul (base_proper 1 0) (base_proper 0 0)
  (w := ⟨[⟨1, 1⟩, ⟨1, 1⟩, ⟨0, 1⟩, ⟨0, 1⟩, ⟨0, 1⟩, ⟨0, 1⟩, ⟨0, 1⟩], 0⟩) (by decide +kernel)
example := C26_div (base_proper 0 0) (base_proper 2 0)
  (w := ⟨[⟨1, 1⟩, ⟨0, 1⟩, ⟨-1, 1⟩, ⟨0, 1⟩, ⟨0, 1⟩, ⟨0, 1⟩, ⟨0, 1⟩], 0⟩) (by decide +kernel)
example := C26_ext (base_proper 1 3) (base_proper 1 3) rfl rfl
example := C26_assoc (base_proper 0 0) (base_proper 1 0) (base_proper 2 0)
  (uv := ⟨[⟨1, 1⟩, ⟨1, 1⟩, ⟨0, 1⟩, ⟨0, 1⟩, ⟨0, 1⟩, ⟨0, 1⟩, ⟨0, 1⟩], 0⟩)
  (vw := ⟨[⟨0, 1⟩, ⟨1, 1⟩, ⟨1, 1⟩, ⟨0, 1⟩, ⟨0, 1⟩, ⟨0, 1⟩, ⟨0, 1⟩], 0⟩)
  (l := ⟨[⟨1, 1⟩, ⟨1, 1⟩, ⟨1, 1⟩, ⟨0, 1⟩, ⟨0, 1⟩, ⟨0, 1⟩, ⟨0, 1⟩], 0⟩)
  (r := ⟨[⟨1, 1⟩, ⟨1, 1⟩, ⟨1, 1⟩, ⟨0, 1⟩, ⟨0, 1⟩, ⟨0, 1⟩, ⟨0, 1⟩], 0⟩)
  (by decide +kernel) (by decide +kernel) (by decide +kernel) (by decide +kernel)
example : (MUnit.base 4 2).mul (MUnit.unitless 2) = .ok (MUnit.base 4 2) := C26_one (base_proper 4 2)
example : (MUnit.base 0 0) = MUnit.base 0 0 :=
  (C26_inverse (base_proper 0 0) (base_proper 2 0)
    (q := ⟨[⟨1, 1⟩, ⟨0, 1⟩, ⟨-1, 1⟩, ⟨0, 1⟩, ⟨0, 1⟩, ⟨0, 1⟩, ⟨0, 1⟩], 0⟩)
    (w := MUnit.base 0 0)).1 (by decide +kernel) (by decide +kernel)
example := C26_add (u := MUnit.base 1 0) (v := MUnit.base 2 0) rfl
example := C26_tags (u := MUnit.base 1 0) (v := MUnit.base 1 1) (by decide)
example := C26_defined (base_proper 1 0) (base_proper 2 0) rfl
  (by unfold SmallUnit UnitExponent.Small; decide) (by unfold SmallUnit UnitExponent.Small; decide)

/-- Example: mass times length. -/
example : (MUnit.base 1 0).mul (MUnit.base 0 0) =
    .ok ⟨[⟨1, 1⟩, ⟨1, 1⟩, ⟨0, 1⟩, ⟨0, 1⟩, ⟨0, 1⟩, ⟨0, 1⟩, ⟨0, 1⟩], 0⟩ := by decide +kernel
example : Proper (MUnit.base 1 0) := base_proper 1 0
example : SmallUnit (MUnit.base 1 0) := by
  unfold SmallUnit UnitExponent.Small; decide
example : MUnit.stress 0 = .ok ⟨[⟨-1, 1⟩, ⟨1, 1⟩, ⟨-2, 1⟩, ⟨0, 1⟩, ⟨0, 1⟩, ⟨0, 1⟩, ⟨0, 1⟩], 0⟩ := by
  decide +kernel

/-! ## C27 -/

/-- The order on units, independently of how it is computed: by tag, then lexicographically by the
rational exponents. -/
def Before (u v : MUnit) : Prop := u.tag < v.tag ∨ (u.tag = v.tag ∧ vec u < vec v)

/-- **C27** `<` is that order (unless a comparison overflows). -/
theorem C27_unit_lt {u v : MUnit} (hu : Proper u) (hv : Proper v) :
    u.lt v = .ub ∨ (u.lt v = .ok true ∧ Before u v) ∨ (u.lt v = .ok false ∧ ¬ Before u v) := by
  have hz : ∀ as bs : List UnitExponent, (∀ e ∈ as, Computed e) → (∀ e ∈ bs, Computed e) →
      MUnit.ltList as bs = .ub ∨
      (MUnit.ltList as bs = .ok true ∧ as.map UnitExponent.rat < bs.map UnitExponent.rat) ∨
      (MUnit.ltList as bs = .ok false ∧ ¬ as.map UnitExponent.rat < bs.map UnitExponent.rat) := by
    intro as
    induction as with
    | nil =>
      intro bs _ _
      cases bs with
      | nil => right; right; exact ⟨rfl, by simp⟩
      | cons b bs => right; left; exact ⟨rfl, by simp⟩
    | cons a as ih =>
      intro bs ha hb
      cases bs with
      | nil => right; right; exact ⟨rfl, by simp⟩
      | cons b bs =>
        have ca := ha a (by simp)
        have cb := hb b (by simp)
        unfold MUnit.ltList
        simp only [List.map_cons, List.cons_lt_cons_iff]
        rcases C25_order_partial ca cb with h | h
        · left; rw [h]; rfl
        rw [h, Res.ok_bind]
        by_cases hab : a.rat < b.rat
        · right; left; simp [hab]
        rw [if_neg (by simpa using hab)]
        rcases C25_order_partial cb ca with h' | h'
        · left; rw [h']; rfl
        rw [h', Res.ok_bind]
        by_cases hba : b.rat < a.rat
        · right; right
          rw [if_pos (by simpa using hba)]
          refine ⟨rfl, ?_⟩
          rintro (h1 | ⟨h1, _⟩)
          · exact hab h1
          · rw [h1] at hba; exact lt_irrefl _ hba
        · rw [if_neg (by simpa using hba)]
          have heq : a.rat = b.rat := le_antisymm (not_lt.1 hba) (not_lt.1 hab)
          rcases ih bs (fun e he => ha e (by simp [he])) (fun e he => hb e (by simp [he])) with h | h | h
          · left; exact h
          · right; left; exact ⟨h.1, Or.inr ⟨heq, h.2⟩⟩
          · right; right
            refine ⟨h.1, ?_⟩
            rintro (h1 | ⟨_, h1⟩)
            · exact hab h1
            · exact h.2 h1
  unfold MUnit.lt Before
  by_cases ht : u.tag = v.tag
  · rw [if_neg (not_not.2 ht)]
    rcases hz u.units v.units hu.computed hv.computed with h | h | h
    · exact Or.inl h
    · exact Or.inr (Or.inl ⟨h.1, Or.inr ⟨ht, h.2⟩⟩)
    · refine Or.inr (Or.inr ⟨h.1, ?_⟩)
      rintro (h1 | ⟨_, h1⟩)
      · omega
      · exact h.2 h1
  · rw [if_pos ht]
    by_cases h : u.tag < v.tag
    · exact Or.inr (Or.inl ⟨by simp [h], Or.inl h⟩)
    · refine Or.inr (Or.inr ⟨by simp [h], ?_⟩)
      rintro (h1 | ⟨h1, _⟩)
      · exact h h1
      · exact ht h1

example := C27_unit_lt (base_proper 0 0) (base_proper 1 0)

theorem unit_eq_iff (u v : MUnit) : u.eq v = true ↔ u = v := by
  unfold MUnit.eq
  cases u; cases v
  simp only [Bool.and_eq_true, beq_iff_eq, MUnit.mk.injEq]
  exact and_comm

theorem before_trichotomy {u v : MUnit} (hu : Proper u) (hv : Proper v) :
    (Before u v ∧ u ≠ v ∧ ¬ Before v u) ∨ (¬ Before u v ∧ u = v ∧ ¬ Before v u) ∨
    (¬ Before u v ∧ u ≠ v ∧ Before v u) := by
  unfold Before
  rcases lt_trichotomy u.tag v.tag with h | h | h
  · left
    refine ⟨Or.inl h, fun he => by rw [he] at h; omega, ?_⟩
    rintro (h1 | ⟨h1, _⟩) <;> omega
  · rcases lt_trichotomy (vec u) (vec v) with h' | h' | h'
    · left
      refine ⟨Or.inr ⟨h, h'⟩, fun he => by rw [he] at h'; exact lt_irrefl _ h', ?_⟩
      rintro (h1 | ⟨_, h1⟩)
      · omega
      · exact lt_asymm h' h1
    · right; left
      have hEq := C26_ext hu hv h h'
      subst hEq
      simp
    · right; right
      refine ⟨?_, fun he => by rw [he] at h'; exact lt_irrefl _ h', Or.inr ⟨h.symm, h'⟩⟩
      rintro (h1 | ⟨_, h1⟩)
      · omega
      · exact lt_asymm h' h1
  · right; right
    refine ⟨?_, fun he => by rw [he] at h; omega, Or.inl h⟩
    rintro (h1 | ⟨h1, _⟩) <;> omega

theorem before_trans {u v w : MUnit} (h1 : Before u v) (h2 : Before v w) : Before u w := by
  unfold Before at *
  rcases h1 with h1 | ⟨h1, h1'⟩ <;> rcases h2 with h2 | ⟨h2, h2'⟩
  · left; omega
  · left; omega
  · left; omega
  · right; exact ⟨h1.trans h2, lt_trans h1' h2'⟩

/-- **C27** Exactly one of `u < v`, `u == v`, `v < u`, for all units whose comparison does not
overflow. -/
theorem C27_unit_trichotomy {u v : MUnit} (hu : Proper u) (hv : Proper v) {x y : Bool}
    (h1 : u.lt v = .ok x) (h2 : v.lt u = .ok y) :
    (x = true ∧ u.eq v = false ∧ y = false) ∨ (x = false ∧ u.eq v = true ∧ y = false) ∨
    (x = false ∧ u.eq v = false ∧ y = true) := by
  have e : u.eq v = decide (u = v) := by rw [Bool.eq_iff_iff, unit_eq_iff, decide_eq_true_iff]
  have hx : x = true ↔ Before u v := by
    rcases C27_unit_lt hu hv with h | h | h
    · rw [h] at h1; cases h1
    · rw [h.1] at h1; cases h1; simp [h.2]
    · rw [h.1] at h1; cases h1; simp [h.2]
  have hy : y = true ↔ Before v u := by
    rcases C27_unit_lt hv hu with h | h | h
    · rw [h] at h2; cases h2
    · rw [h.1] at h2; cases h2; simp [h.2]
    · rw [h.1] at h2; cases h2; simp [h.2]
  rw [e]
  rcases before_trichotomy hu hv with ⟨a, b, c⟩ | ⟨a, b, c⟩ | ⟨a, b, c⟩
  · left; exact ⟨hx.2 a, decide_eq_false b, by simpa using mt hy.1 c⟩
  · right; left; exact ⟨by simpa using mt hx.1 a, decide_eq_true b, by simpa using mt hy.1 c⟩
  · right; right; exact ⟨by simpa using mt hx.1 a, decide_eq_false b, hy.2 c⟩

example := C27_unit_trichotomy (base_proper 0 0) (base_proper 1 0) (x := false) (y := true)
  (by decide +kernel) (by decide +kernel)

/-- **C27** Transitivity. -/
theorem C27_unit_trans {u v w : MUnit} (hu : Proper u) (hv : Proper v) (hw : Proper w)
    (h1 : u.lt v = .ok true) (h2 : v.lt w = .ok true) : u.lt w = .ub ∨ u.lt w = .ok true := by
  have hx : Before u v := by
    rcases C27_unit_lt hu hv with h | h | h
    · rw [h] at h1; cases h1
    · exact h.2
    · rw [h.1] at h1; cases h1
  have hy : Before v w := by
    rcases C27_unit_lt hv hw with h | h | h
    · rw [h] at h2; cases h2
    · exact h.2
    · rw [h.1] at h2; cases h2
  rcases C27_unit_lt hu hw with h | h | h
  · exact Or.inl h
  · exact Or.inr h.1
  · exact absurd (before_trans hx hy) h.2

example := C27_unit_trans (base_proper 2 0) (base_proper 1 0) (base_proper 0 0) (by decide +kernel) (by decide +kernel)

/-- The order on physics domains: rank, input unit, output unit. -/
def DomainBefore (a b : PhysicsDomain) : Prop :=
  a.rank < b.rank ∨ (a.rank = b.rank ∧
    (Before a.input b.input ∨ (a.input = b.input ∧ Before a.output b.output)))

/-- **C27** `<` of physics domains is that order (unless a comparison overflows). -/
theorem C27_domain_lt {a b : PhysicsDomain} (hai : Proper a.input) (hao : Proper a.output)
    (hbi : Proper b.input) (hbo : Proper b.output) :
    a.lt b = .ub ∨ (a.lt b = .ok true ∧ DomainBefore a b) ∨ (a.lt b = .ok false ∧ ¬ DomainBefore a b) := by
  unfold PhysicsDomain.lt DomainBefore
  rcases lt_trichotomy a.rank b.rank with h | h | h
  · right; left; rw [if_pos h]; exact ⟨rfl, Or.inl h⟩
  · rw [if_neg (by omega), if_neg (by omega)]
    rcases C27_unit_lt hai hbi with k | k | k
    · left; rw [k]; rfl
    · right; left; rw [k.1]; exact ⟨rfl, Or.inr ⟨h, Or.inl k.2⟩⟩
    · rw [k.1, Res.ok_bind, if_neg (by simp)]
      rcases C27_unit_lt hbi hai with k' | k' | k'
      · left; rw [k']; rfl
      · right; right
        rw [k'.1, Res.ok_bind, if_pos rfl]
        refine ⟨rfl, ?_⟩
        rintro (h1 | ⟨_, h1 | ⟨h1, _⟩⟩)
        · omega
        · exact k.2 h1
        · rw [h1] at k'; exact (h1 ▸ k.2) k'.2
      · rw [k'.1, Res.ok_bind, if_neg (by simp)]
        have heq : a.input = b.input := by
          rcases before_trichotomy hai hbi with t | t | t
          · exact absurd t.1 k.2
          · exact t.2.1
          · exact absurd t.2.2 k'.2
        rcases C27_unit_lt hao hbo with t | t | t
        · left; exact t
        · right; left; exact ⟨t.1, Or.inr ⟨h, Or.inr ⟨heq, t.2⟩⟩⟩
        · right; right
          refine ⟨t.1, ?_⟩
          rintro (h1 | ⟨_, h1 | ⟨_, h1⟩⟩)
          · omega
          · exact k.2 h1
          · exact t.2 h1
  · right; right
    rw [if_neg (by omega), if_pos h]
    refine ⟨rfl, ?_⟩
    rintro (h1 | ⟨h1, _⟩) <;> omega

/-- Three physics domains with base units as input and output. -/
def exDomain (i o : Nat) : PhysicsDomain := ⟨1, MUnit.base i 0, MUnit.base o 0, "domain"⟩

example := C27_domain_lt (a := exDomain 0 1) (b := exDomain 0 2) (base_proper _ _) (base_proper _ _) (base_proper _ _)
  (base_proper _ _)

/-- **C27** Exactly one of `a < b`, `a == b`, `b < a` (where `==` ignores the name). -/
theorem C27_domain_trichotomy {a b : PhysicsDomain} (hai : Proper a.input) (hao : Proper a.output)
    (hbi : Proper b.input) (hbo : Proper b.output) {x y : Bool} (h1 : a.lt b = .ok x) (h2 : b.lt a = .ok y) :
    (x = true ∧ a.eq b = false ∧ y = false) ∨ (x = false ∧ a.eq b = true ∧ y = false) ∨
    (x = false ∧ a.eq b = false ∧ y = true) := by
  have e : a.eq b = decide (a.rank = b.rank ∧ a.input = b.input ∧ a.output = b.output) := by
    rw [Bool.eq_iff_iff, decide_eq_true_iff]
    unfold PhysicsDomain.eq
    simp only [Bool.and_eq_true, beq_iff_eq, unit_eq_iff, and_assoc]
  have hx : x = true ↔ DomainBefore a b := by
    rcases C27_domain_lt hai hao hbi hbo with h | h | h
    · rw [h] at h1; cases h1
    · rw [h.1] at h1; cases h1; simp [h.2]
    · rw [h.1] at h1; cases h1; simp [h.2]
  have hy : y = true ↔ DomainBefore b a := by
    rcases C27_domain_lt hbi hbo hai hao with h | h | h
    · rw [h] at h2; cases h2
    · rw [h.1] at h2; cases h2; simp [h.2]
    · rw [h.1] at h2; cases h2; simp [h.2]
  have hx' : x = false ↔ ¬ DomainBefore a b := by rw [← hx]; simp
  have hy' : y = false ↔ ¬ DomainBefore b a := by rw [← hy]; simp
  rw [e, hx, hy, hx', hy', decide_eq_true_iff, decide_eq_false_iff_not]
  unfold DomainBefore
  rcases lt_trichotomy a.rank b.rank with h | h | h
  · left; refine ⟨Or.inl h, by omega, ?_⟩
    rintro (k | ⟨k, _⟩) <;> omega
  · rcases before_trichotomy hai hbi with ⟨p, q, r⟩ | ⟨p, q, r⟩ | ⟨p, q, r⟩
    · left
      refine ⟨Or.inr ⟨h, Or.inl p⟩, fun k => q k.2.1, ?_⟩
      rintro (k | ⟨_, k | ⟨k, _⟩⟩)
      · omega
      · exact r k
      · exact q k.symm
    · rcases before_trichotomy hao hbo with ⟨p', q', r'⟩ | ⟨p', q', r'⟩ | ⟨p', q', r'⟩
      · left
        refine ⟨Or.inr ⟨h, Or.inr ⟨q, p'⟩⟩, fun k => q' k.2.2, ?_⟩
        rintro (k | ⟨_, k | ⟨_, k⟩⟩)
        · omega
        · exact r k
        · exact r' k
      · right; left
        refine ⟨?_, ⟨h, q, q'⟩, ?_⟩
        · rintro (k | ⟨_, k | ⟨_, k⟩⟩)
          · omega
          · exact p k
          · exact p' k
        · rintro (k | ⟨_, k | ⟨_, k⟩⟩)
          · omega
          · exact r k
          · exact r' k
      · right; right
        refine ⟨?_, fun k => q' k.2.2, Or.inr ⟨h.symm, Or.inr ⟨q.symm, r'⟩⟩⟩
        rintro (k | ⟨_, k | ⟨_, k⟩⟩)
        · omega
        · exact p k
        · exact p' k
    · right; right
      refine ⟨?_, fun k => q k.2.1, Or.inr ⟨h.symm, Or.inl r⟩⟩
      rintro (k | ⟨_, k | ⟨k, _⟩⟩)
      · omega
      · exact p k
      · exact q k
  · right; right; refine ⟨?_, by omega, Or.inl h⟩
    rintro (k | ⟨k, _⟩) <;> omega

example := C27_domain_trichotomy (a := exDomain 0 1) (b := exDomain 0 2) (base_proper _ _) (base_proper _ _)
  (base_proper _ _) (base_proper _ _) (x := false) (y := true) (by decide +kernel) (by decide +kernel)

/-- **C27** Transitivity for physics domains. -/
theorem C27_domain_trans {a b c : PhysicsDomain} (hai : Proper a.input) (hao : Proper a.output)
    (hbi : Proper b.input) (hbo : Proper b.output) (hci : Proper c.input) (hco : Proper c.output)
    (h1 : a.lt b = .ok true) (h2 : b.lt c = .ok true) : a.lt c = .ub ∨ a.lt c = .ok true := by
  have hx : DomainBefore a b := by
    rcases C27_domain_lt hai hao hbi hbo with h | h | h
    · rw [h] at h1; cases h1
    · exact h.2
    · rw [h.1] at h1; cases h1
  have hy : DomainBefore b c := by
    rcases C27_domain_lt hbi hbo hci hco with h | h | h
    · rw [h] at h2; cases h2
    · exact h.2
    · rw [h.1] at h2; cases h2
  rcases C27_domain_lt hai hao hci hco with h | h | h
  · exact Or.inl h
  · exact Or.inr h.1
  · refine absurd ?_ h.2
    unfold DomainBefore at *
    rcases hx with hx | ⟨hx, hx' | ⟨hx', hx''⟩⟩ <;> rcases hy with hy | ⟨hy, hy' | ⟨hy', hy''⟩⟩
    · left; omega
    · left; omega
    · left; omega
    · left; omega
    · right; exact ⟨by omega, Or.inl (before_trans hx' hy')⟩
    · right; exact ⟨by omega, Or.inl (hy' ▸ hx')⟩
    · left; omega
    · right; exact ⟨by omega, Or.inl (hx' ▸ hy')⟩
    · right; exact ⟨by omega, Or.inr ⟨hx'.trans hy', before_trans hx'' hy''⟩⟩

example := C27_domain_trans (a := exDomain 0 2) (b := exDomain 0 1) (c := exDomain 0 0) (base_proper _ _)
  (base_proper _ _) (base_proper _ _) (base_proper _ _) (base_proper _ _) (base_proper _ _) (by decide +kernel)
  (by decide +kernel)

/-- **C27** No comparison of units, or of physics domains, with exponents up to 32767 overflows. -/
theorem C27_defined {u v : MUnit} (hu : Proper u) (hv : Proper v) (su : SmallUnit u) (sv : SmallUnit v) :
    u.lt v ≠ .ub := by
  have hz : ∀ as bs : List UnitExponent, (∀ e ∈ as, Computed e ∧ e.Small) →
      (∀ e ∈ bs, Computed e ∧ e.Small) → MUnit.ltList as bs ≠ .ub := by
    intro as
    induction as with
    | nil => intro bs _ _; cases bs <;> (unfold MUnit.ltList; simp)
    | cons a as ih =>
      intro bs ha hb
      cases bs with
      | nil => unfold MUnit.ltList; simp
      | cons b bs =>
        have ca := ha a (by simp)
        have cb := hb b (by simp)
        unfold MUnit.ltList
        rcases C25_order_partial ca.1 cb.1 with h | h
        · exact absurd h (C25_no_overflow ca.1 cb.1 ca.2 cb.2).2.2
        rcases C25_order_partial cb.1 ca.1 with h' | h'
        · exact absurd h' (C25_no_overflow cb.1 ca.1 cb.2 ca.2).2.2
        rw [h, Res.ok_bind, h', Res.ok_bind]
        split
        · simp
        · split
          · simp
          · exact ih bs (fun e he => ha e (by simp [he])) (fun e he => hb e (by simp [he]))
  unfold MUnit.lt
  split
  · simp
  · exact hz _ _ (fun e he => ⟨hu.computed e he, su e he⟩) (fun e he => ⟨hv.computed e he, sv e he⟩)

example := C27_defined (base_proper 1 0) (base_proper 2 0)
  (by unfold SmallUnit UnitExponent.Small; decide) (by unfold SmallUnit UnitExponent.Small; decide)

/-- **Finding.**  The constructor's "validity check" only prints a warning.  The built-in mechanics
domain passes it for the tag 0 only, the built-in heat domain never does. -/
theorem C27_domain_warnings :
    (PhysicsDomain.mechanics 0 >>= fun p => pure p.2) = .ok false ∧
    (PhysicsDomain.mechanics 1 >>= fun p => pure p.2) = .ok true ∧
    (PhysicsDomain.heat 0 >>= fun p => pure p.2) = .ok true := by
  decide +kernel

/-- Example: a unit with negative exponents is before one with positive ones. -/
example : (⟨[⟨-1, 2⟩, ⟨0, 1⟩, ⟨0, 1⟩, ⟨0, 1⟩, ⟨0, 1⟩, ⟨0, 1⟩, ⟨0, 1⟩], 0⟩ : MUnit).lt (MUnit.base 0 0) =
    .ok true ∧ (MUnit.base 0 0).lt (MUnit.base 1 0) = .ok false ∧
    (MUnit.base 1 0).lt (MUnit.base 0 0) = .ok true := by decide +kernel

end Verif.Props
