import Verif.Model.Iterators
import Mathlib.Tactic.Ring
import Mathlib.Tactic.Linarith
import Mathlib.Tactic.LinearCombination
import Mathlib.Algebra.Order.Ring.Int
import Mathlib.Data.List.Basic
/-
C42 (zip, enumerate, arange) and C46 (compile-time square root).
-/
namespace Verif.Props
open Verif.Iterators

/-! ### Vocabulary -/

/-- A range-based `for` over `R` ends and sees the values `l` in this order. -/
def Yields {σ β : Type} (R : Range σ β) (l : List β) : Prop :=
  ∃ fuel, collect R fuel R.start = some (.ok l)

/-- A range-based `for` over `R` never ends. -/
def Diverges {σ β : Type} (R : Range σ β) : Prop := ∀ fuel, collect R fuel R.start = none

/-- Python's `range(a, b, s)`: `a, a + s, a + 2s, …` as long as `b` is not reached. -/
def IsRange (a b s : Int) (l : List Int) : Prop :=
  l = (List.range l.length).map (fun (k : Nat) => a + k * s) ∧
  ∀ k : Nat, k < l.length ↔ ∀ j : Nat, j ≤ k → if 0 < s then a + j * s < b else b < a + j * s

/-! ### Helpers -/

/-- From the state `s` on, the loop sees `l`. -/
inductive Lists {σ β : Type} (R : Range σ β) : σ → List β → Prop
  | nil {s} : R.ne s = false → Lists R s []
  | cons {s b l} : R.ne s = true → R.deref s = .ok b → Lists R (R.next s) l → Lists R s (b :: l)

theorem Lists.collect {σ β : Type} {R : Range σ β} {s : σ} {l : List β} (h : Lists R s l) :
    collect R (l.length + 1) s = some (.ok l) := by
  induction h with
  | nil h => simp [Iterators.collect, h]
  | @cons s b l h hd _ ih => rw [List.length_cons, Iterators.collect, if_pos h, hd]; simp [ih]

theorem Lists.yields {σ β : Type} {R : Range σ β} {s : σ} {l m : List β} (h : Lists R s l)
    (hs : R.start = s) (hm : l = m) : Yields R m := by
  subst hs hm
  exact ⟨_, h.collect⟩

theorem lists_ofList {β : Type} (l : List β) (k : Nat) (hk : k ≤ l.length) :
    Lists (ofList l) k (l.drop k) := by
  by_cases h : k = l.length
  · subst h
    rw [List.drop_length]
    exact .nil (by simp [ofList])
  · have hlt : k < l.length := by omega
    rw [List.drop_eq_getElem_cons hlt]
    exact .cons (by simp [ofList, h]) (at!_eq_ok hlt) (lists_ofList l (k + 1) (by omega))
termination_by l.length - k

theorem Lists.zip {σ τ β γ : Type} {R : Range σ β} {S : Range τ γ} {s : σ} {t : τ} {l : List β} {m : List γ}
    (h : Lists R s l) (h' : Lists S t m) : Lists (Iterators.zip R S) (s, t) (l.zip m) := by
  induction h generalizing t m with
  | nil h => exact .nil (by simp [Iterators.zip, h])
  | cons h hd _ ih =>
    cases h' with
    | nil h' => exact .nil (by simp [Iterators.zip, h'])
    | cons h' hd' hl' =>
      exact .cons (by simp [Iterators.zip, h, h']) (by simp [Iterators.zip, hd, hd']) (ih hl')

theorem arange_lists {start stop step : Int} (hs : step ≠ 0) {R : Range Int Int}
    (hR : arange start stop step = .ok R) (q : Nat) (v : Int)
    (hq : arangeStop start stop step = v + q * step) :
    Lists R v ((List.range q).map (fun (k : Nat) => v + k * step)) := by
  have hR' := hR
  simp only [arange, if_neg hs, Res.ok.injEq] at hR'
  induction q generalizing v with
  | zero =>
    simp only [Nat.cast_zero, zero_mul, add_zero] at hq
    exact .nil (by rw [← hR']; simp [hq])
  | succ q ih =>
    have h1 := ih (v + step) (by rw [hq]; push_cast; ring)
    rw [List.range_succ_eq_map, List.map_cons, List.map_map]
    have h2 : (List.range q).map ((fun (k : Nat) => v + (k : Int) * step) ∘ Nat.succ)
        = (List.range q).map (fun (k : Nat) => v + step + k * step) := by
      apply List.map_congr_left
      intro k _
      simp only [Function.comp, Nat.succ_eq_add_one]; push_cast; ring
    rw [h2, Nat.cast_zero, zero_mul, add_zero]
    refine .cons ?_ (by rw [← hR']) (by rw [← hR'] at h1 ⊢; exact h1)
    rw [← hR']
    simp only [bne_iff_ne, ne_eq, hq]
    intro h
    have h3 : ((q + 1 : Nat) : Int) * step = 0 := by linarith
    rcases mul_eq_zero.1 h3 with h4 | h4
    · omega
    · exact hs h4

theorem arange_diverges {start stop step : Int} (hs : step ≠ 0) {R : Range Int Int}
    (hR : arange start stop step = .ok R) (q : Int) (hq0 : q < 0)
    (hq : arangeStop start stop step = start + q * step) : Diverges R := by
  simp only [arange, if_neg hs, Res.ok.injEq] at hR
  have key : ∀ (fuel : Nat) (v q : Int), q < 0 → arangeStop start stop step = v + q * step →
      collect R fuel v = none := by
    intro fuel
    induction fuel with
    | zero => intros; rfl
    | succ fuel ih =>
      intro v q hq0 hq
      have h1 := ih (v + step) (q - 1) (by omega) (by rw [hq]; ring)
      have h2 : R.ne v = true := by
        rw [← hR]
        simp only [bne_iff_ne, ne_eq, hq]
        intro h
        rcases mul_eq_zero.1 (by linarith : q * step = 0) with h4 | h4
        · omega
        · exact hs h4
      have h3 : R.deref v = .ok v := by rw [← hR]
      have h4 : R.next v = v + step := by rw [← hR]
      rw [collect, if_pos h2, h3, h4, h1]
  intro fuel
  have : R.start = start := by rw [← hR]
  rw [this]
  exact key fuel start q hq0 hq

/-- The end of an `arange` is a whole number of steps away. -/
theorem arangeStop_eq (start stop step : Int) :
    arangeStop start stop step = start +
      (if Int.tmod (stop - start) step = 0 then Int.tdiv (stop - start) step
        else 1 + Int.tdiv (stop - start) step) * step := by
  have h := Int.tdiv_mul_add_tmod (stop - start) step
  unfold arangeStop
  split
  · rename_i h0
    rw [h0] at h
    linarith
  · rfl

/-- An endless range: the end is never met. -/
theorem Lists.zip_endless {σ τ β γ : Type} {R : Range σ β} {S : Range τ γ} {t : τ} {m : List γ}
    (f : Nat → β) (h' : Lists S t m) (s : σ)
    (h : ∀ n, R.ne (R.next^[n] s) = true ∧ R.deref (R.next^[n] s) = .ok (f n)) :
    Lists (Iterators.zip R S) (s, t) (((List.range m.length).map f).zip m) := by
  induction h' generalizing s f with
  | nil h' => simpa using Lists.nil (R := Iterators.zip R S) (by simp [Iterators.zip, h'])
  | cons h' hd' _ ih =>
    have h0 := h 0
    simp only [Function.iterate_zero, id_eq] at h0
    have := ih (fun n => f (n + 1)) (R.next s) (fun n => by
      have := h (n + 1)
      rwa [Function.iterate_succ_apply] at this)
    rw [List.length_cons, List.range_succ_eq_map, List.map_cons, List.map_map, List.zip_cons_cons]
    exact .cons (by simp [Iterators.zip, h0.1, h']) (by simp [Iterators.zip, h0.2, hd']) this

theorem step_toward {a s : Int} {q : Nat} (hs : s ≠ 0) (k : Nat) (h : k ≤ q) :
    if 0 < s then a + k * s ≤ a + q * s else a + q * s ≤ a + k * s := by
  have h' : (k : Int) ≤ q := by exact_mod_cast h
  split
  · nlinarith
  · have : s < 0 := by omega
    nlinarith

/-- The regular case: the number of values. -/
theorem isRange_of {a b s : Int} (hs : s ≠ 0) (q : Nat)
    (h : if 0 < s then (b ≤ a + q * s ∧ a + q * s < b + s) else (a + q * s ≤ b ∧ b + s < a + q * s)) :
    IsRange a b s ((List.range q).map (fun (k : Nat) => a + k * s)) := by
  refine ⟨by simp, ?_⟩
  intro k
  rw [List.length_map, List.length_range]
  by_cases hp : 0 < s
  · simp only [hp, if_true] at h ⊢
    constructor
    · intro hk j hj
      have : ((j : Int) + 1) ≤ q := by exact_mod_cast (by omega : j + 1 ≤ q)
      nlinarith
    · intro hk
      by_contra hc
      have := hk q (by omega)
      linarith
  · have hn : s < 0 := by omega
    simp only [hp, if_false] at h ⊢
    constructor
    · intro hk j hj
      have : ((j : Int) + 1) ≤ q := by exact_mod_cast (by omega : j + 1 ≤ q)
      nlinarith
    · intro hk
      by_contra hc
      have := hk q (by omega)
      linarith

/-- The number of steps computed by the constructor. -/
def arangeCount (a b s : Int) : Int :=
  if Int.tmod (b - a) s = 0 then Int.tdiv (b - a) s else 1 + Int.tdiv (b - a) s

theorem arangeCount_pos {a b s : Int} (hs : 0 < s) (h : a ≤ b) :
    0 ≤ arangeCount a b s ∧ b ≤ a + arangeCount a b s * s ∧ a + arangeCount a b s * s < b + s := by
  have h1 := Int.tdiv_mul_add_tmod (b - a) s
  have h2 : 0 ≤ Int.tmod (b - a) s := Int.tmod_nonneg _ (by omega)
  have h3 : Int.tmod (b - a) s < s := Int.tmod_lt_of_pos _ hs
  have h4 : 0 ≤ Int.tdiv (b - a) s := Int.tdiv_nonneg (by omega) (by omega)
  unfold arangeCount
  split
  · rename_i h0
    rw [h0] at h1
    exact ⟨h4, by linarith, by linarith⟩
  · rename_i h0
    refine ⟨by omega, by nlinarith, ?_⟩
    have : 0 < Int.tmod (b - a) s := by omega
    nlinarith

theorem arangeCount_neg (a b s : Int) : arangeCount a b s = arangeCount (-a) (-b) (-s) := by
  have h : (-b - -a : Int) = -(b - a) := by ring
  unfold arangeCount
  rw [h, Int.tmod_neg, Int.neg_tmod, Int.neg_tdiv_neg]
  simp

/-! ### C42 -/

/-- C42: zipping two containers of any types pairs the values position by position and stops with the
shorter one; the loop always ends and never reads outside. -/
theorem C42_zip {β γ : Type} (l : List β) (m : List γ) :
    Yields (zip (ofList l) (ofList m)) (l.zip m) :=
  ⟨_, ((lists_ofList l 0 (by omega)).zip (lists_ofList m 0 (by omega))).collect⟩

/-- C42 for three containers: position by position, stopping with the shortest. -/
theorem C42_zip3 {β γ δ : Type} (l : List β) (m : List γ) (n : List δ) :
    Yields (zip (ofList l) (zip (ofList m) (ofList n))) (l.zip (m.zip n)) :=
  ⟨_, ((lists_ofList l 0 (by omega)).zip
    ((lists_ofList m 0 (by omega)).zip (lists_ofList n 0 (by omega)))).collect⟩

example : Yields (zip (ofList [1, 2, 3]) (ofList ["a", "b"])) [(1, "a"), (2, "b")] := C42_zip _ _

/-- C42 for `arange` whose step leads from start to stop: the loop ends and yields python's range; `size`
and `operator[]` agree with it.

Full statement (`C42_statement`): for all starts, stops and non-zero steps.  Missing: steps leading away
from the stop, see `C42_arange_away`. -/
theorem C42_arange_partial {a b s : Int} (h : 0 < s ∧ a ≤ b ∨ s < 0 ∧ b ≤ a) :
    ∃ R l, arange a b s = .ok R ∧ Yields R l ∧ IsRange a b s l ∧
      arangeSize a b s = .ok l.length ∧ ∀ i (hi : i < l.length), l[i] = arangeAt a s i := by
  have hs : s ≠ 0 := by omega
  have hc : 0 ≤ arangeCount a b s ∧ if 0 < s then (b ≤ a + arangeCount a b s * s ∧
      a + arangeCount a b s * s < b + s) else (a + arangeCount a b s * s ≤ b ∧
      b + s < a + arangeCount a b s * s) := by
    rcases h with ⟨h1, h2⟩ | ⟨h1, h2⟩
    · rw [if_pos h1]; exact arangeCount_pos h1 h2
    · rw [if_neg (by omega), arangeCount_neg]
      obtain ⟨h3, h4, h5⟩ := arangeCount_pos (a := -a) (b := -b) (s := -s) (by omega) (by omega)
      exact ⟨h3, by linarith, by linarith⟩
  obtain ⟨q, hq⟩ := Int.eq_ofNat_of_zero_le hc.1
  rw [hq] at hc
  have hst : arangeStop a b s = a + q * s := by
    rw [arangeStop_eq, show (if Int.tmod (b - a) s = 0 then Int.tdiv (b - a) s
      else 1 + Int.tdiv (b - a) s) = arangeCount a b s from rfl, hq]
  obtain ⟨R, hR⟩ : ∃ R, arange a b s = .ok R := ⟨_, by rw [arange, if_neg hs]⟩
  have hstart : R.start = a := by
    have hR' := hR
    simp only [arange, if_neg hs, Res.ok.injEq] at hR'
    rw [← hR']
  refine ⟨R, (List.range q).map (fun (k : Nat) => a + k * s), hR,
    (arange_lists hs hR q a hst).yields hstart rfl, isRange_of hs q hc.2, ?_, ?_⟩
  · rw [arangeSize, if_neg hs, hst, List.length_map, List.length_range, add_sub_cancel_left,
      Int.mul_tdiv_cancel _ hs]
  · intro i hi
    simp [arangeAt]

example : (0 : Int) < 3 ∧ (2 : Int) ≤ 10 := by decide
example : IsRange 2 10 3 [2, 5, 8] := by
  have := isRange_of (a := 2) (b := 10) (s := 3) (by decide) 3 (by decide)
  exact this

/-- What `arange` does when the step leads away from the stop (python yields nothing): the loop never ends
if the distance is a multiple of the step or at least twice the step, yields the start if the distance is
smaller than the step, and nothing in between. -/
theorem C42_arange_away {a b s : Int} (h : 0 < s ∧ b < a ∨ s < 0 ∧ a < b) :
    ∃ R, arange a b s = .ok R ∧
      (s ∣ (b - a) ∨ 2 * |s| ≤ |b - a| → Diverges R) ∧
      (|b - a| < |s| → Yields R [a]) ∧
      (|s| < |b - a| → |b - a| < 2 * |s| → Yields R []) := by
  have hs : s ≠ 0 := by omega
  obtain ⟨R, hR⟩ : ∃ R, arange a b s = .ok R := ⟨_, by rw [arange, if_neg hs]⟩
  have hstart : R.start = a := by
    have hR' := hR
    simp only [arange, if_neg hs, Res.ok.injEq] at hR'
    rw [← hR']
  -- the count in terms of the absolute distance
  obtain ⟨d, p, hd, hp, hda, hps, hdvd, hcount⟩ : ∃ d p : Int, 0 < d ∧ 0 < p ∧ |b - a| = d ∧ |s| = p ∧
      (s ∣ (b - a) ↔ d % p = 0) ∧ arangeCount a b s = if d % p = 0 then -(d / p) else 1 - d / p := by
    rcases h with ⟨h1, h2⟩ | ⟨h1, h2⟩
    · refine ⟨a - b, s, by omega, h1, ?_, abs_of_pos h1, ?_, ?_⟩
      · rw [abs_of_neg (by omega)]; ring
      · rw [← Int.dvd_neg, Int.dvd_iff_emod_eq_zero]; simp
      · have h3 : (b - a : Int) = -(a - b) := by ring
        unfold arangeCount
        rw [h3, Int.neg_tmod, Int.neg_tdiv, Int.tmod_eq_emod_of_nonneg (by omega),
          Int.tdiv_eq_ediv_of_nonneg (by omega)]
        simp only [neg_eq_zero]
        split <;> ring
    · refine ⟨b - a, -s, by omega, by omega, abs_of_pos (by omega), abs_of_neg h1, ?_, ?_⟩
      · rw [← Int.neg_dvd, Int.dvd_iff_emod_eq_zero]
      · unfold arangeCount
        have h4 : s = -(-s) := by ring
        rw [h4, Int.tmod_neg, Int.tdiv_neg, Int.tmod_eq_emod_of_nonneg (by omega),
          Int.tdiv_eq_ediv_of_nonneg (by omega)]
        rw [neg_neg]
        split <;> ring
  have hst : arangeStop a b s = a + arangeCount a b s * s := arangeStop_eq a b s
  refine ⟨R, hR, ?_, ?_, ?_⟩
  · rw [hdvd, hda, hps]
    intro h1
    refine arange_diverges hs hR _ ?_ hst
    rw [hcount]
    have h2 := Int.emod_add_mul_ediv d p
    have h3 := Int.emod_lt_of_pos d hp
    split
    · rename_i h0
      have : 0 < d / p := by
        rw [h0, zero_add] at h2
        by_contra hc
        nlinarith
      omega
    · rename_i h0
      rcases h1 with h1 | h1
      · exact absurd h1 h0
      · have : 2 ≤ d / p := Int.le_ediv_of_mul_le hp h1
        omega
  · rw [hda, hps]
    intro h1
    have h2 : d / p = 0 := Int.ediv_eq_zero_of_lt (by omega) h1
    have h3 : d % p = d := Int.emod_eq_of_lt (by omega) h1
    have h4 : arangeCount a b s = 1 := by rw [hcount, h2, h3, if_neg (by omega)]; rfl
    rw [h4] at hst
    exact (arange_lists hs hR 1 a (by rw [hst]; rfl)).yields hstart (by simp)
  · rw [hda, hps]
    intro h1 h2
    have h3 : d / p = 1 := by
      rw [Int.ediv_eq_iff_of_pos hp]
      constructor <;> linarith
    have h4 : d % p ≠ 0 := by
      have := Int.emod_add_mul_ediv d p
      rw [h3] at this
      intro h0
      omega
    have h5 : arangeCount a b s = 0 := by rw [hcount, h3, if_neg h4]; rfl
    rw [h5] at hst
    exact (arange_lists hs hR 0 a (by rw [hst]; rfl)).yields hstart (by simp)

example : (0 : Int) < 2 ∧ (-1 : Int) < 0 := by decide

/-- C42 as stated for `arange`. -/
def C42_arange_statement : Prop :=
  ∀ a b s : Int, s ≠ 0 → ∃ R l, arange a b s = .ok R ∧ Yields R l ∧ IsRange a b s l

/-- `arange(0, -1, 2)` yields `0`; python's range is empty. -/
theorem C42_arange_false : ¬ C42_arange_statement := by
  intro h
  obtain ⟨R, l, hR, ⟨fuel, hl⟩, _, h2⟩ := h 0 (-1) 2 (by decide)
  have h3 : l = [] := by
    by_contra hne
    have := (h2 0).1 (List.length_pos_iff.2 hne) 0 (by omega)
    simp at this
  subst h3
  have hR' : R.ne 0 = true ∧ R.deref 0 = .ok 0 ∧ R.start = 0 := by
    rw [arange, if_neg (by decide)] at hR
    cases hR
    decide
  cases fuel with
  | zero => simp [collect] at hl
  | succ fuel =>
    rw [hR'.2.2, collect, if_pos hR'.1, hR'.2.1] at hl
    revert hl
    generalize collect R fuel (R.next 0) = x
    intro hl
    rcases x with _ | (_ | _ | _) <;> simp at hl

/-- `arange(3, 1)` never ends; python's range is empty. -/
theorem C42_arange_endless : ∃ R, arange 3 1 1 = .ok R ∧ Diverges R := by
  obtain ⟨R, hR, h, _⟩ := C42_arange_away (a := 3) (b := 1) (s := 1) (by decide)
  exact ⟨R, hR, h (Or.inl (by decide))⟩

/-- C42 for `enumerate(c)`: every element with its position.

Full statement (`C42_enumerate_statement`): `enumerate(c, s)` yields every element with its position plus
`s`.  Missing: `0 < s ≤ size`, where elements are lost, see `C42_enumerate_start`. -/
theorem C42_enumerate_partial {β : Type} (l : List β) :
    ∃ R, enumerate l 0 = .ok R ∧
      Yields R (((List.range l.length).map (fun (k : Nat) => (k : Int))).zip l) := by
  obtain ⟨A, hA⟩ : ∃ A, arange ((0 : Nat) : Int) l.length 1 = .ok A := ⟨_, by rw [arange, if_neg (by decide)]⟩
  have hstart : A.start = 0 := by
    have hA' := hA
    rw [arange, if_neg (by decide)] at hA'
    simp only [Res.ok.injEq] at hA'
    rw [← hA']; rfl
  refine ⟨zip A (ofList l), by rw [enumerate, hA]; rfl, ?_⟩
  have h := (arange_lists (by decide) hA l.length 0 (by
    rw [arangeStop_eq]; simp [Int.tmod_one, Int.tdiv_one])).zip (lists_ofList l 0 (by omega))
  have h2 : (zip A (ofList l)).start = (0, 0) := by simp [zip, ofList, hstart]
  exact h.yields h2 (by simp)

/-- What `enumerate(c, s)` does: for `s ≤ size` it yields only the first `size - s` elements (paired with
`s, s + 1, …`); for `s > size` it yields all elements. -/
theorem C42_enumerate_start {β : Type} (l : List β) (s : Nat) :
    ∃ R, enumerate l s = .ok R ∧
      (s ≤ l.length → Yields R (((List.range (l.length - s)).map (fun (k : Nat) => ((s + k : Nat) : Int))).zip l)) ∧
      (l.length < s → Yields R (((List.range l.length).map (fun (k : Nat) => ((s + k : Nat) : Int))).zip l)) := by
  obtain ⟨A, hA⟩ : ∃ A, arange (s : Int) l.length 1 = .ok A := ⟨_, by rw [arange, if_neg (by decide)]⟩
  have hA' := hA
  rw [arange, if_neg (by decide)] at hA'
  simp only [Res.ok.injEq] at hA'
  have hst : arangeStop s l.length 1 = l.length := by
    rw [arangeStop_eq]; simp [Int.tmod_one, Int.tdiv_one]
  have h2 : (zip A (ofList l)).start = ((s : Int), 0) := by rw [← hA']; rfl
  refine ⟨zip A (ofList l), by simp [enumerate, hA], ?_, ?_⟩
  · intro hs
    have h := (arange_lists (by decide) hA (l.length - s) s (by
      rw [hst]; push_cast [hs]; ring)).zip (lists_ofList l 0 (by omega))
    exact h.yields h2 (by simp)
  · intro hs
    have h := Lists.zip_endless (R := A) (fun k => ((s + k : Nat) : Int)) (lists_ofList l 0 (by omega)) (s : Int) (by
      intro n
      have hn : A.next^[n] (s : Int) = ((s + n : Nat) : Int) := by
        induction n with
        | zero => simp
        | succ n ih =>
          rw [Function.iterate_succ_apply', ih, ← hA']
          push_cast; ring
      rw [hn, ← hA', hst]
      refine ⟨?_, rfl⟩
      simp only [bne_iff_ne, ne_eq]
      omega)
    exact h.yields h2 (by simp)

/-- C42 as stated for `enumerate`. -/
def C42_enumerate_statement : Prop :=
  ∀ (l : List Nat) (s : Nat), ∃ R, enumerate l s = .ok R ∧
    Yields R (((List.range l.length).map (fun (k : Nat) => ((s + k : Nat) : Int))).zip l)

theorem yields_unique {σ β : Type} {R : Range σ β} {l m : List β} (h : Yields R l) (h' : Yields R m) :
    l = m := by
  obtain ⟨f, h⟩ := h
  obtain ⟨g, h'⟩ := h'
  have key : ∀ (f g : Nat) (s : σ) (l m : List β), collect R f s = some (.ok l) →
      collect R g s = some (.ok m) → l = m := by
    intro f
    induction f with
    | zero => intro g s l m h; simp [collect] at h
    | succ f ih =>
      intro g s l m h h'
      cases g with
      | zero => simp [collect] at h'
      | succ g =>
        rw [collect] at h h'
        by_cases hne : R.ne s
        · rw [if_pos hne] at h h'
          cases hd : R.deref s with
          | ok b =>
            rw [hd] at h h'
            simp only at h h'
            cases hx : collect R f (R.next s) with
            | none => rw [hx] at h; simp at h
            | some x =>
              cases hy : collect R g (R.next s) with
              | none => rw [hy] at h'; simp at h'
              | some y =>
                rw [hx] at h; rw [hy] at h'
                rcases x with x | x | _ <;> simp at h
                rcases y with y | y | _ <;> simp at h'
                rw [← h, ← h', ih g _ x y hx hy]
          | throw e => rw [hd] at h; simp at h
          | ub => rw [hd] at h; simp at h
        · rw [if_neg hne] at h h'
          simp at h h'
          rw [h', h]
  exact key f g _ l m h h'

/-- `enumerate([7, 8], 1)` yields `(1, 7)` only. -/
theorem C42_enumerate_false : ¬ C42_enumerate_statement := by
  intro h
  obtain ⟨R, hR, hy⟩ := h [7, 8] 1
  obtain ⟨R', hR', h1, _⟩ := C42_enumerate_start [7, 8] 1
  rw [hR] at hR'
  cases hR'
  have := yields_unique hy (h1 (by decide))
  revert this
  decide

/-- C42 for `enum_zip` of two containers starting at 0: positions and elements up to the shorter one. -/
theorem C42_enum_zip {β γ : Type} (l : List β) (m : List γ) :
    ∃ R, enumZip l m 0 = .ok R ∧
      Yields R (((List.range l.length).map (fun (k : Nat) => (k : Int))).zip (l.zip m)) := by
  obtain ⟨A, hA⟩ : ∃ A, arange ((0 : Nat) : Int) l.length 1 = .ok A := ⟨_, by rw [arange, if_neg (by decide)]⟩
  have hA' := hA
  rw [arange, if_neg (by decide)] at hA'
  simp only [Res.ok.injEq] at hA'
  refine ⟨zip A (zip (ofList l) (ofList m)), by rw [enumZip, hA]; rfl, ?_⟩
  have h := (arange_lists (by decide) hA l.length 0 (by
    rw [arangeStop_eq]; simp [Int.tmod_one, Int.tdiv_one])).zip
      ((lists_ofList l 0 (by omega)).zip (lists_ofList m 0 (by omega)))
  have h2 : (zip A (zip (ofList l) (ofList m))).start = ((0 : Int), 0, 0) := by rw [← hA']; rfl
  exact h.yields h2 (by simp)

example : ∃ R, enumZip [1, 2, 3] ["a", "b"] 0 = .ok R ∧
    Yields R [(0, 1, "a"), (1, 2, "b")] := C42_enum_zip _ _

/-! ### C46 -/

theorem ctSqrtAux_spec (res : Int) (n : Nat) (l r : Int) (hn : r - l < n) (hlr : l ≤ r) (hl : 1 ≤ l)
    (hr : res ≤ r * r) (hlow : ∀ x, 1 ≤ x → x < l → x * x < res) (hb : r ≤ 46341) :
    ∃ x, ctSqrtAux res n l r = some (.ok x) ∧ l ≤ x ∧ x ≤ r ∧ res ≤ x * x ∧
      ∀ y, 1 ≤ y → y < x → y * y < res := by
  induction n generalizing l r with
  | zero => omega
  | succ n ih =>
    rw [ctSqrtAux]
    by_cases h : l = r
    · rw [if_pos h]
      exact ⟨r, rfl, hlr, le_refl _, hr, h ▸ hlow⟩
    · rw [if_neg h, if_neg (by unfold intMax; omega)]
      have hmid : Int.tdiv (r + l) 2 = (r + l) / 2 := Int.tdiv_eq_ediv_of_nonneg (by omega)
      simp only [hmid]
      generalize hm : (r + l) / 2 = mid
      have hm1 : l ≤ mid := by omega
      have hm2 : mid < r := by omega
      have hm3 : mid ≤ 46340 := by omega
      rw [if_neg (by unfold intMax; nlinarith)]
      by_cases hc : mid * mid ≥ res
      · rw [if_pos hc]
        obtain ⟨x, h1, h2, h3, h4, h5⟩ := ih l mid (by omega) hm1 hl hc hlow (by omega)
        exact ⟨x, h1, h2, by omega, h4, h5⟩
      · rw [if_neg hc]
        obtain ⟨x, h1, h2, h3, h4, h5⟩ := ih (mid + 1) r (by omega) (by omega) (by omega) hr (by
          intro x hx1 hx2
          have : x ≤ mid := by omega
          nlinarith) hb
        exact ⟨x, h1, by omega, h3, h4, h5⟩

/-- C46: for every `n` from 1 to 92680 the search ends (after at most `n` steps) and returns the least
positive number whose square is at least `n`.

Full statement: all positive `n`.  Missing: larger `n`, where `int` overflows, see `C46_overflow`. -/
theorem C46_least_partial (n : Int) (h1 : 1 ≤ n) (h2 : n ≤ 92680) (fuel : Nat) (hf : n ≤ fuel) :
    ∃ x, ctSqrt fuel n = some (.ok x) ∧ 1 ≤ x ∧ n ≤ x * x ∧ ∀ y, 1 ≤ y → y < x → y * y < n := by
  unfold ctSqrt
  by_cases hs : n ≤ 46341
  · obtain ⟨x, h3, h4, _, h5, h6⟩ := ctSqrtAux_spec n fuel 1 n (by omega) h1 (le_refl _) (by nlinarith)
      (by intro x hx hx'; omega) hs
    exact ⟨x, h3, h4, h5, h6⟩
  · obtain ⟨f, rfl⟩ : ∃ f, fuel = f + 1 := ⟨fuel - 1, by omega⟩
    have hmid : Int.tdiv (n + 1) 2 = (n + 1) / 2 := Int.tdiv_eq_ediv_of_nonneg (by omega)
    rw [ctSqrtAux, if_neg (by omega), if_neg (by unfold intMax; omega)]
    simp only [hmid]
    generalize hm : (n + 1) / 2 = mid
    have hm3 : mid ≤ 46340 := by omega
    have hm4 : 2 * mid ≥ n := by omega
    have hm5 : mid * mid ≥ n := by nlinarith
    rw [if_neg (by unfold intMax; nlinarith), if_pos hm5]
    obtain ⟨x, h3, h4, _, h5, h6⟩ := ctSqrtAux_spec n f 1 mid (by omega) (by omega) (le_refl _) hm5
      (by intro x hx hx'; omega) (by omega)
    exact ⟨x, h3, h4, h5, h6⟩

example : ∃ x, ctSqrt 7 7 = some (.ok x) ∧ 1 ≤ x ∧ 7 ≤ x * x ∧ ∀ y, 1 ≤ y → y < x → y * y < 7 :=
  C46_least_partial 7 (by decide) (by decide) 7 (by decide)
example : ctSqrt 7 7 = some (.ok 3) := by decide

/-- C46: the dimension is recovered from its square. -/
theorem C46_square_partial (n : Int) (h1 : 1 ≤ n) (h2 : n ≤ 304) (fuel : Nat) (hf : n * n ≤ fuel) :
    ctSqrt fuel (n * n) = some (.ok n) := by
  obtain ⟨x, h3, h4, h5, h6⟩ := C46_least_partial (n * n) (by nlinarith) (by nlinarith) fuel hf
  have : x = n := by
    rcases lt_trichotomy x n with h | h | h
    · nlinarith
    · exact h
    · have := h6 n h1 h
      omega
  rw [h3, this]

example : ctSqrt 81 81 = some (.ok 9) := C46_square_partial 9 (by decide) (by decide) 81 (by decide)

/-- From 92681 on the first step overflows. -/
theorem C46_overflow (n : Int) (h : 92681 ≤ n) (fuel : Nat) : ctSqrt (fuel + 1) n = some .ub := by
  unfold ctSqrt
  rw [ctSqrtAux, if_neg (by omega)]
  split
  · rfl
  · have hmid : Int.tdiv (n + 1) 2 = (n + 1) / 2 := Int.tdiv_eq_ediv_of_nonneg (by omega)
    simp only [hmid]
    generalize hm : (n + 1) / 2 = mid
    have hm3 : 46341 ≤ mid := by omega
    rw [if_pos (by unfold intMax; nlinarith)]

example : ctSqrt 5 100000 = some .ub := C46_overflow _ (by decide) 4

/-- For zero and negative arguments the recursion never ends. -/
theorem C46_nonpos (n : Int) (h : n ≤ 0) (h' : -46340 ≤ n) (fuel : Nat) : ctSqrt fuel n = none := by
  have key : ∀ (fuel : Nat) (r : Int), r ≤ 0 → -46340 ≤ r → ctSqrtAux n fuel 1 r = none := by
    intro fuel
    induction fuel with
    | zero => intros; rfl
    | succ fuel ih =>
      intro r hr hr'
      rw [ctSqrtAux, if_neg (by omega), if_neg (by unfold intMax; omega)]
      have hb : Int.tdiv (r + 1) 2 ≤ 0 ∧ -46340 ≤ Int.tdiv (r + 1) 2 := by
        by_cases h0 : r = 0
        · subst h0; decide
        · have : Int.tdiv (r + 1) 2 = -((-(r + 1)) / 2) := by
            rw [← Int.tdiv_eq_ediv_of_nonneg (by omega), Int.neg_tdiv, neg_neg]
          omega
      simp only
      rw [if_neg (by unfold intMax; nlinarith), if_pos (by nlinarith)]
      exact ih _ hb.1 hb.2
  exact key fuel n h h'

example : ctSqrt 1000 (-9) = none := C46_nonpos _ (by decide) (by decide) _

/-- C46 as stated. -/
def C46_statement : Prop := ∀ n : Int, 1 ≤ n → n * n ≤ intMax → ∃ fuel, ctSqrt fuel (n * n) = some (.ok n)

/-- `ct_sqrt(305 * 305)` overflows although its argument and result are small. -/
theorem C46_false : ¬ C46_statement := by
  intro h
  obtain ⟨fuel, hf⟩ := h 305 (by decide) (by decide)
  cases fuel with
  | zero => simp [ctSqrt, ctSqrtAux] at hf
  | succ fuel =>
    rw [C46_overflow _ (by decide)] at hf
    cases hf

end Verif.Props
