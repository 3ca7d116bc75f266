import Mathlib.Data.Rat.Lemmas
import Mathlib.Data.Nat.GCD.Basic
import Mathlib.Algebra.Order.Ring.Int
import Mathlib.Algebra.Ring.Parity
import Mathlib.Data.Nat.Prime.Basic
import Mathlib.Tactic.FieldSimp
import Mathlib.Tactic.Ring
import Mathlib.Tactic.Linarith
import Mathlib.Tactic.NormNum
import Verif.Model.Units
/-
Lemmas on units.
-/
namespace Verif.Units
open Verif

theorem even_iff {a : Nat} : a &&& 1 = 0 ↔ a % 2 = 0 := by rw [Nat.and_one_is_mod]

theorem half (a : Nat) : a >>> 1 = a / 2 := by rw [Nat.shiftRight_eq_div_pow, Nat.pow_one]

theorem gcd_two_mul {a b : Nat} (ha : a % 2 = 0) (hb : b % 2 = 0) :
    Nat.gcd a b = Nat.gcd (a / 2) (b / 2) * 2 := by
  obtain ⟨c, rfl⟩ := Nat.dvd_of_mod_eq_zero ha
  obtain ⟨d, rfl⟩ := Nat.dvd_of_mod_eq_zero hb
  rw [Nat.gcd_mul_left, Nat.mul_div_cancel_left _ (by omega), Nat.mul_div_cancel_left _ (by omega)]
  omega

theorem gcd_half_left {a b : Nat} (ha : a % 2 = 0) (hb : b % 2 ≠ 0) :
    Nat.gcd a b = Nat.gcd (a / 2) b := by
  obtain ⟨c, rfl⟩ := Nat.dvd_of_mod_eq_zero ha
  rw [Nat.mul_div_cancel_left _ (by omega)]
  apply Nat.Coprime.gcd_mul_left_cancel
  exact Nat.coprime_two_left.2 (Nat.odd_iff.2 (by omega))

theorem gcdWorker_eq (a b : Nat) : gcdWorker a b = Nat.gcd a b := by
  induction hn : a + b using Nat.strongRecOn generalizing a b with
  | ind n ih =>
    unfold gcdWorker
    split
    · subst_vars; simp
    split
    · subst_vars; simp
    split
    · subst_vars; simp
    simp only [even_iff, half]
    split
    · split
      · rw [ih (a / 2 + b / 2) (by omega) _ _ rfl, gcd_two_mul (a := a) (b := b) ‹_› ‹_›, Nat.shiftLeft_eq,
          pow_one]
      · rw [ih (a / 2 + b) (by omega) _ _ rfl, gcd_half_left (a := a) (b := b) ‹_› ‹_›]
    · split
      · rw [ih (a + b / 2) (by omega) _ _ rfl, Nat.gcd_comm a b, gcd_half_left (a := b) (b := a) ‹_› ‹_›,
          Nat.gcd_comm]
      · split
        · rw [ih ((a - b) / 2 + b) (by omega) _ _ rfl, ← gcd_half_left (by omega) ‹_›]
          rw [Nat.gcd_sub_self_left (by omega)]
        · rw [ih ((b - a) / 2 + a) (by omega) _ _ rfl, ← gcd_half_left (by omega) ‹_›]
          rw [Nat.gcd_sub_self_left (by omega), Nat.gcd_comm]

theorem chk_eq_ok {x y : Int} : chk x = .ok y ↔ InInt x ∧ y = x := by
  unfold chk
  split
  · simp only [Res.ok.injEq, true_and, *]; exact eq_comm
  · simp [*]

theorem chk_of {x : Int} (h : InInt x) : chk x = .ok x := chk_eq_ok.2 ⟨h, rfl⟩

namespace UnitExponent

/-- The rational number an exponent stands for. -/
def rat (e : UnitExponent) : ℚ := (e.num : ℚ) / (e.den : ℚ)

/-- In lowest terms, with positive denominator, within the integer type. -/
structure Reduced (e : UnitExponent) : Prop where
  pos : 0 < e.den
  coprime : Nat.Coprime e.num.natAbs e.den.natAbs
  num : InInt e.num
  den : InInt e.den

theorem tdiv_gcd {n g : Int} (h : g ∣ n) (hg : g ≠ 0) : n.tdiv g * g = n := Int.tdiv_mul_cancel h

theorem mk'_ok {n d : Int} (hn : InInt n) (hd : InInt d) {e : UnitExponent} (h : mk' n d = .ok e) :
    d ≠ 0 ∧ e.Reduced ∧ e.rat = (n : ℚ) / (d : ℚ) := by
  unfold mk' at h
  split at h
  · simp at h
  rename_i hd0
  refine ⟨hd0, ?_⟩
  unfold reduce at h
  obtain ⟨g, hg, h⟩ := Res.bind_eq_ok.1 h
  unfold computeGcd at hg
  split at hg
  · simp at hg
  rename_i hmin
  simp only at hmin
  simp only [Res.ok.injEq] at hg
  rw [gcdWorker_eq] at hg
  have hgpos : 0 < g := by
    rw [← hg]
    exact_mod_cast Nat.gcd_pos_of_pos_right _ (by simp at hd0 ⊢; omega)
  simp only [Res.pure_eq] at h
  have hdn : g ∣ n := by rw [← hg]; exact Int.natCast_dvd.2 (Nat.gcd_dvd_left _ _)
  have hdd : g ∣ d := by rw [← hg]; exact Int.natCast_dvd.2 (Nat.gcd_dvd_right _ _)
  obtain ⟨n', hn'⟩ := hdn
  obtain ⟨d', hd'⟩ := hdd
  have hcop : Nat.Coprime n'.natAbs d'.natAbs := by
    have h1 := congrArg Int.natAbs hn'
    have h2 := congrArg Int.natAbs hd'
    rw [Int.natAbs_mul] at h1 h2
    have h3 : Nat.gcd n.natAbs d.natAbs = g.natAbs := by omega
    rw [h1, h2, Nat.gcd_mul_left] at h3
    have : 0 < g.natAbs := by omega
    unfold Nat.Coprime
    exact Nat.eq_of_mul_eq_mul_left this (by rw [h3, mul_one])
  have hgQ : (g : ℚ) ≠ 0 := by exact_mod_cast hgpos.ne'
  unfold InInt at hn hd
  have hbn : n'.natAbs ≤ n.natAbs := by
    rw [hn', Int.natAbs_mul]
    exact Nat.le_mul_of_pos_left _ (by omega)
  have hbd : d'.natAbs ≤ d.natAbs := by
    rw [hd', Int.natAbs_mul]
    exact Nat.le_mul_of_pos_left _ (by omega)
  by_cases hs : d < 0
  · rw [if_pos hs, if_neg (by omega), Res.ok.injEq] at h
    have e1 : n.tdiv (-1 * g) = -n' := by
      rw [hn', show g * n' = (-1 * g) * (-n') by ring]
      exact Int.mul_tdiv_cancel_left _ (by omega)
    have e2 : d.tdiv (-1 * g) = -d' := by
      rw [hd', show g * d' = (-1 * g) * (-d') by ring]
      exact Int.mul_tdiv_cancel_left _ (by omega)
    rw [e1, e2] at h
    have hd'neg : d' < 0 := by
      by_contra hc
      have : 0 ≤ g * d' := mul_nonneg hgpos.le (by omega)
      omega
    subst h
    refine ⟨⟨by simp only; omega, by simpa using hcop, ?_, ?_⟩, ?_⟩
    · unfold InInt; simp only; omega
    · unfold InInt; simp only; omega
    · unfold rat
      simp only
      rw [hn', hd']
      push_cast
      have : (d' : ℚ) ≠ 0 := by exact_mod_cast hd'neg.ne
      field_simp
  · rw [if_neg hs, one_mul, if_neg (by omega), Res.ok.injEq] at h
    have e1 : n.tdiv g = n' := by rw [hn']; exact Int.mul_tdiv_cancel_left _ (by omega)
    have e2 : d.tdiv g = d' := by rw [hd']; exact Int.mul_tdiv_cancel_left _ (by omega)
    rw [e1, e2] at h
    have hd'pos : 0 < d' := by
      by_contra hc
      have : g * d' ≤ 0 := mul_nonpos_of_nonneg_of_nonpos hgpos.le (by omega)
      omega
    subst h
    refine ⟨⟨hd'pos, hcop, ?_, ?_⟩, ?_⟩
    · unfold InInt; simp only; omega
    · unfold InInt; simp only; omega
    · unfold rat
      simp only
      rw [hn', hd']
      push_cast
      have : (d' : ℚ) ≠ 0 := by exact_mod_cast hd'pos.ne'
      field_simp

/-- The constructor succeeds for all integers but the least one. -/
theorem mk'_succeeds {n d : Int} (hd : d ≠ 0) (hn' : n ≠ -2147483648) (hd' : d ≠ -2147483648) :
    ∃ e, mk' n d = .ok e := by
  have hg : (gcdWorker n.natAbs d.natAbs : Int) ≠ 0 := by
    rw [gcdWorker_eq]
    have := Nat.gcd_pos_of_pos_right n.natAbs (show 0 < d.natAbs by omega)
    omega
  unfold mk' reduce computeGcd
  rw [if_neg hd, if_neg (by simp only; omega)]
  simp only [Res.ok_bind]
  by_cases hs : d < 0
  · rw [if_pos hs, if_neg (by omega)]; exact ⟨_, rfl⟩
  · rw [if_neg hs, if_neg (by omega)]; exact ⟨_, rfl⟩

theorem Reduced.ext {a b : UnitExponent} (ha : a.Reduced) (hb : b.Reduced) (h : a.rat = b.rat) : a = b := by
  have h1 : a.num = b.num ∧ a.den = b.den := by
    have ea : a.rat = Rat.divInt a.num a.den := by rw [Rat.divInt_eq_div]; rfl
    have eb : b.rat = Rat.divInt b.num b.den := by rw [Rat.divInt_eq_div]; rfl
    have ka := Rat.num_div_eq_of_coprime ha.pos ha.coprime
    have kb := Rat.num_div_eq_of_coprime hb.pos hb.coprime
    have la := Rat.den_div_eq_of_coprime ha.pos ha.coprime
    have lb := Rat.den_div_eq_of_coprime hb.pos hb.coprime
    unfold rat at h
    rw [h] at ka la
    exact ⟨ka.symm.trans kb, la.symm.trans lb⟩
  cases a; cases b; simp_all

theorem mul_ok {a b e : UnitExponent} (ha : a.Reduced) (hb : b.Reduced) (h : mul a b = .ok e) :
    e.Reduced ∧ e.rat = a.rat + b.rat := by
  unfold mul at h
  obtain ⟨p, hp, h⟩ := Res.bind_eq_ok.1 h
  obtain ⟨q, hq, h⟩ := Res.bind_eq_ok.1 h
  obtain ⟨n, hn, h⟩ := Res.bind_eq_ok.1 h
  obtain ⟨d, hd, h⟩ := Res.bind_eq_ok.1 h
  rw [chk_eq_ok] at hp hq hn hd
  obtain ⟨_, h2, h3⟩ := mk'_ok (hn.2 ▸ hn.1) (hd.2 ▸ hd.1) h
  refine ⟨h2, ?_⟩
  rw [h3, hn.2, hd.2, hp.2, hq.2]
  unfold rat
  have e1 : (a.den : ℚ) ≠ 0 := by exact_mod_cast ha.pos.ne'
  have e2 : (b.den : ℚ) ≠ 0 := by exact_mod_cast hb.pos.ne'
  push_cast
  field_simp

theorem div_ok {a b e : UnitExponent} (ha : a.Reduced) (hb : b.Reduced) (h : div a b = .ok e) :
    e.Reduced ∧ e.rat = a.rat - b.rat := by
  unfold div at h
  obtain ⟨p, hp, h⟩ := Res.bind_eq_ok.1 h
  obtain ⟨q, hq, h⟩ := Res.bind_eq_ok.1 h
  obtain ⟨n, hn, h⟩ := Res.bind_eq_ok.1 h
  obtain ⟨d, hd, h⟩ := Res.bind_eq_ok.1 h
  rw [chk_eq_ok] at hp hq hn hd
  obtain ⟨_, h2, h3⟩ := mk'_ok (hn.2 ▸ hn.1) (hd.2 ▸ hd.1) h
  refine ⟨h2, ?_⟩
  rw [h3, hn.2, hd.2, hp.2, hq.2]
  unfold rat
  have e1 : (a.den : ℚ) ≠ 0 := by exact_mod_cast ha.pos.ne'
  have e2 : (b.den : ℚ) ≠ 0 := by exact_mod_cast hb.pos.ne'
  push_cast
  field_simp

theorem rat_neg_iff {e : UnitExponent} (h : e.Reduced) : e.rat < 0 ↔ e.num < 0 := by
  unfold rat
  have e1 : (0 : ℚ) < (e.den : ℚ) := by exact_mod_cast h.pos
  rw [div_lt_iff₀ e1, zero_mul]
  exact Int.cast_lt_zero

theorem lt_ok {a b : UnitExponent} (ha : a.Reduced) (hb : b.Reduced) {r : Bool} (h : lt a b = .ok r) :
    r = true ↔ a.rat < b.rat := by
  unfold lt at h
  obtain ⟨d, hd, h⟩ := Res.bind_eq_ok.1 h
  simp only [Res.pure_eq, Res.ok.injEq] at h
  obtain ⟨h1, h2⟩ := div_ok ha hb hd
  rw [← h, decide_eq_true_iff, ← rat_neg_iff h1, h2]
  exact sub_neg

/-- Exponents small enough for one operation. -/
def Small (e : UnitExponent) : Prop := -32767 ≤ e.num ∧ e.num ≤ 32767 ∧ e.den ≤ 32767

theorem prods {a b : UnitExponent} (ha : a.Reduced) (hb : b.Reduced) (sa : a.Small) (sb : b.Small) :
    (-1073676289 ≤ a.num * b.den ∧ a.num * b.den ≤ 1073676289) ∧
    (-1073676289 ≤ b.num * a.den ∧ b.num * a.den ≤ 1073676289) ∧
    (0 < a.den * b.den ∧ a.den * b.den ≤ 1073676289) := by
  obtain ⟨a1, a2, a3⟩ := sa
  obtain ⟨b1, b2, b3⟩ := sb
  have := ha.pos
  have := hb.pos
  refine ⟨⟨?_, ?_⟩, ⟨?_, ?_⟩, ?_, ?_⟩ <;> nlinarith

theorem mul_small {a b : UnitExponent} (ha : a.Reduced) (hb : b.Reduced) (sa : a.Small) (sb : b.Small) :
    ∃ e, mul a b = .ok e := by
  obtain ⟨⟨h1, h2⟩, ⟨h3, h4⟩, h5, h6⟩ := prods ha hb sa sb
  unfold mul
  rw [chk_of (by unfold InInt; omega), Res.ok_bind, chk_of (by unfold InInt; omega), Res.ok_bind,
    chk_of (by unfold InInt; omega), Res.ok_bind, chk_of (by unfold InInt; omega), Res.ok_bind]
  exact mk'_succeeds (by omega) (by omega) (by omega)

theorem div_small {a b : UnitExponent} (ha : a.Reduced) (hb : b.Reduced) (sa : a.Small) (sb : b.Small) :
    ∃ e, div a b = .ok e := by
  obtain ⟨⟨h1, h2⟩, ⟨h3, h4⟩, h5, h6⟩ := prods ha hb sa sb
  unfold div
  rw [chk_of (by unfold InInt; omega), Res.ok_bind, chk_of (by unfold InInt; omega), Res.ok_bind,
    chk_of (by unfold InInt; omega), Res.ok_bind, chk_of (by unfold InInt; omega), Res.ok_bind]
  exact mk'_succeeds (by omega) (by omega) (by omega)

end UnitExponent
end Verif.Units
