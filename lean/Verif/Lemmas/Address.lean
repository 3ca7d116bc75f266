import Verif.Spec.Address
import Verif.Model.Layout
import Verif.Lemmas.RawMemory
/-
Helper lemmas: composing addressings.
-/
namespace Verif
open Verif.Ccoord

theorem inBox_append {a b c : List Int} :
    InBox (a ++ b) c ↔ ∃ c1 c2, c = c1 ++ c2 ∧ InBox a c1 ∧ InBox b c2 := by
  induction a generalizing c with
  | nil =>
    constructor
    · intro h; exact ⟨[], c, by simp, by simp [InBox], by simpa using h⟩
    · rintro ⟨c1, c2, rfl, h1, h2⟩
      cases c1 with
      | nil => simpa using h2
      | cons => simp [InBox] at h1
  | cons n a ih =>
    cases c with
    | nil =>
      simp only [List.cons_append, InBox, false_iff]
      rintro ⟨c1, c2, he, h1, -⟩
      cases c1 with
      | nil => simp [InBox] at h1
      | cons => simp at he
    | cons x c =>
      simp only [List.cons_append, InBox, ih]
      constructor
      · rintro ⟨h1, h2, c1, c2, rfl, h3, h4⟩
        exact ⟨x :: c1, c2, by simp, ⟨h1, h2, h3⟩, h4⟩
      · rintro ⟨c1, c2, he, h1, h2⟩
        cases c1 with
        | nil => simp [InBox] at h1
        | cons y c1 =>
          simp only [List.cons_append, List.cons.injEq] at he
          obtain ⟨rfl, rfl⟩ := he
          exact ⟨h1.1, h1.2.1, c1, c2, rfl, h1.2.2, h2⟩

theorem dot_append {s t c d : List Int} (h : c.length = s.length) :
    dot (s ++ t) (c ++ d) = dot s c + dot t d := by
  induction s generalizing c with
  | nil =>
    have : c = [] := List.length_eq_zero_iff.1 h
    subst this; simp [dot]
  | cons x s ih =>
    cases c with
    | nil => simp at h
    | cons y c => simp [dot, ih (c := c) (by simpa using h)]; ring

theorem dot_map_mul (k : Int) (s c : List Int) : dot (s.map (· * k)) c = k * dot s c := by
  induction s generalizing c with
  | nil => simp [dot]
  | cons x s ih => cases c <;> simp [dot, ih]; ring

theorem mixed_unique {A a a' b b' : Int} (h0 : 0 ≤ a) (h1 : a < A) (h0' : 0 ≤ a') (h1' : a' < A)
    (h : a + A * b = a' + A * b') : a = a' ∧ b = b' := by
  have hb : b = b' := by
    by_contra hne
    rcases lt_or_gt_of_ne hne with hlt | hlt
    · have : A * b + A ≤ A * b' := by nlinarith
      omega
    · have : A * b' + A ≤ A * b := by nlinarith
      omega
  subst hb
  exact ⟨by omega, rfl⟩

/-- First block fast, second block slow. -/
theorem Addressing.append_fast {sh1 st1 sh2 st2 : List Int} {A B : Int} (h1 : Addressing sh1 st1 A)
    (h2 : Addressing sh2 st2 B) : Addressing (sh1 ++ sh2) (st1 ++ st2.map (· * A)) (A * B) := by
  have hl1 := h1.length_eq
  have hl2 := h2.length_eq
  refine ⟨by simp [hl1, hl2], ?_, ?_⟩
  · intro c hc
    obtain ⟨c1, c2, rfl, hc1, hc2⟩ := inBox_append.1 hc
    rw [dot_append (by rw [hl1, hc1.length_eq]), dot_map_mul]
    have b1 := h1.bounds c1 hc1
    have b2 := h2.bounds c2 hc2
    constructor
    · have : 0 ≤ A * dot st2 c2 := mul_nonneg (by omega) b2.1
      omega
    · have : A * (dot st2 c2 + 1) ≤ A * B := Int.mul_le_mul_of_nonneg_left (by omega) (by omega)
      rw [mul_add] at this; omega
  · intro c c' hc hc' he
    obtain ⟨c1, c2, rfl, hc1, hc2⟩ := inBox_append.1 hc
    obtain ⟨d1, d2, rfl, hd1, hd2⟩ := inBox_append.1 hc'
    rw [dot_append (by rw [hl1, hc1.length_eq]), dot_append (by rw [hl1, hd1.length_eq]),
      dot_map_mul, dot_map_mul] at he
    have b1 := h1.bounds c1 hc1
    have b1' := h1.bounds d1 hd1
    obtain ⟨e1, e2⟩ := mixed_unique b1.1 b1.2 b1'.1 b1'.2 he
    rw [h1.inj _ _ hc1 hd1 e1, h2.inj _ _ hc2 hd2 e2]

/-- First block slow, second block fast. -/
theorem Addressing.append_slow {sh1 st1 sh2 st2 : List Int} {A B : Int} (h1 : Addressing sh1 st1 A)
    (h2 : Addressing sh2 st2 B) : Addressing (sh1 ++ sh2) (st1.map (· * B) ++ st2) (A * B) := by
  have hl1 := h1.length_eq
  have hl2 := h2.length_eq
  refine ⟨by simp [hl1, hl2], ?_, ?_⟩
  · intro c hc
    obtain ⟨c1, c2, rfl, hc1, hc2⟩ := inBox_append.1 hc
    rw [dot_append (by simp [hl1, hc1.length_eq]), dot_map_mul]
    have b1 := h1.bounds c1 hc1
    have b2 := h2.bounds c2 hc2
    constructor
    · have : 0 ≤ B * dot st1 c1 := mul_nonneg (by omega) b1.1
      omega
    · have : B * (dot st1 c1 + 1) ≤ B * A := Int.mul_le_mul_of_nonneg_left (by omega) (by omega)
      rw [mul_add] at this; rw [mul_comm A B]; omega
  · intro c c' hc hc' he
    obtain ⟨c1, c2, rfl, hc1, hc2⟩ := inBox_append.1 hc
    obtain ⟨d1, d2, rfl, hd1, hd2⟩ := inBox_append.1 hc'
    rw [dot_append (by simp [hl1, hc1.length_eq]), dot_append (by simp [hl1, hd1.length_eq]),
      dot_map_mul, dot_map_mul] at he
    have b1 := h2.bounds c2 hc2
    have b1' := h2.bounds d2 hd2
    obtain ⟨e1, e2⟩ := mixed_unique b1.1 b1.2 b1'.1 b1'.2
      (show dot st2 c2 + B * dot st1 c1 = dot st2 d2 + B * dot st1 d1 by omega)
    rw [h1.inj _ _ hc1 hd1 e2, h2.inj _ _ hc2 hd2 e1]

theorem Fills.append_fast {sh1 st1 sh2 st2 : List Int} {A B : Int} (hl : st1.length = sh1.length)
    (h1 : Fills sh1 st1 A) (h2 : Fills sh2 st2 B) (hA : 0 < A) :
    Fills (sh1 ++ sh2) (st1 ++ st2.map (· * A)) (A * B) := by
  intro i h0 hi
  obtain ⟨c1, hc1, e1⟩ := h1 (i % A) (Int.emod_nonneg _ (by omega)) (Int.emod_lt_of_pos _ hA)
  obtain ⟨c2, hc2, e2⟩ := h2 (i / A) (Int.ediv_nonneg h0 hA.le) (Int.ediv_lt_of_lt_mul hA (by
    rw [mul_comm]; exact hi))
  refine ⟨c1 ++ c2, inBox_append.2 ⟨c1, c2, rfl, hc1, hc2⟩, ?_⟩
  rw [dot_append (by rw [hl, hc1.length_eq]), dot_map_mul, e1, e2]
  exact Int.emod_add_mul_ediv i A

theorem Fills.append_slow {sh1 st1 sh2 st2 : List Int} {A B : Int} (hl : st1.length = sh1.length)
    (h1 : Fills sh1 st1 A) (h2 : Fills sh2 st2 B) (hB : 0 < B) :
    Fills (sh1 ++ sh2) (st1.map (· * B) ++ st2) (A * B) := by
  intro i h0 hi
  obtain ⟨c2, hc2, e2⟩ := h2 (i % B) (Int.emod_nonneg _ (by omega)) (Int.emod_lt_of_pos _ hB)
  obtain ⟨c1, hc1, e1⟩ := h1 (i / B) (Int.ediv_nonneg h0 hB.le) (Int.ediv_lt_of_lt_mul hB hi)
  refine ⟨c1 ++ c2, inBox_append.2 ⟨c1, c2, rfl, hc1, hc2⟩, ?_⟩
  rw [dot_append (by simp [hl, hc1.length_eq]), dot_map_mul, e1, e2]
  have := Int.emod_add_mul_ediv i B
  omega

theorem addressing_nil : Addressing [] [] 1 := by
  refine ⟨rfl, ?_, ?_⟩
  · intro c hc; cases c <;> simp_all [InBox, dot]
  · intro c c' hc hc' _; cases c <;> cases c' <;> simp_all [InBox]

theorem fills_nil : Fills [] [] 1 := by
  intro i h0 hi; exact ⟨[], by simp [InBox], by simp [dot]; omega⟩

theorem addressing_single (n : Int) : Addressing [n] [1] n := by
  refine ⟨rfl, ?_, ?_⟩
  · intro c hc
    obtain _ | ⟨x, _ | ⟨y, c⟩⟩ := c <;> simp [InBox] at hc
    simp [dot]; omega
  · intro c c' hc hc' he
    obtain _ | ⟨x, _ | ⟨y, c⟩⟩ := c <;> simp [InBox] at hc
    obtain _ | ⟨x', _ | ⟨y, c⟩⟩ := c' <;> simp [InBox] at hc'
    simp [dot] at he; simp [he]

theorem fills_single (n : Int) : Fills [n] [1] n := by
  intro i h0 hi; exact ⟨[i], by simp [InBox]; omega, by simp [dot]⟩

namespace Layout.FieldLayout

theorem accStrides_mul (acc e : Int) (s : List Int) :
    accStrides (acc * e) s = (accStrides acc s).map (· * e) := by
  induction s generalizing acc with
  | nil => rfl
  | cons n s ih =>
    simp only [accStrides, List.map_cons]
    rw [← ih (acc * n)]
    congr 2; ring

theorem accStrides_length (acc : Int) (s : List Int) : (accStrides acc s).length = s.length := by
  induction s generalizing acc with
  | nil => rfl
  | cons n s ih => simp [accStrides, ih]

theorem accStrides_append (acc : Int) (s t : List Int) :
    accStrides acc (s ++ t) = accStrides acc s ++ accStrides (acc * s.prod) t := by
  induction s generalizing acc with
  | nil => simp [accStrides]
  | cons n s ih => simp [accStrides, ih, mul_assoc]

theorem accStrides_eq_colMajor (acc : Int) (s : List Int) : accStrides acc s = colMajorStridesAux acc s := by
  induction s generalizing acc with
  | nil => rfl
  | cons n s ih => simp [accStrides, colMajorStridesAux, ih]

theorem addressing_acc (s : List Int) : Addressing s (accStrides 1 s) s.prod := by
  induction s with
  | nil => simpa [accStrides] using addressing_nil
  | cons n s ih =>
    have := (addressing_single n).append_fast ih
    have e : accStrides 1 (n :: s) = [1] ++ (accStrides 1 s).map (· * n) := by
      simp only [accStrides, ← accStrides_mul]
      simp
    rw [e]; simpa using this

theorem fills_acc {s : List Int} (hp : Pos s) : Fills s (accStrides 1 s) s.prod := by
  induction s with
  | nil => simpa [accStrides] using fills_nil
  | cons n s ih =>
    have hn := Pos.cons.1 hp
    have := Fills.append_fast (by simp) (fills_single n) (ih hn.2) hn.1
    have e : accStrides 1 (n :: s) = [1] ++ (accStrides 1 s).map (· * n) := by
      simp only [accStrides, ← accStrides_mul]
      simp
    rw [e]; simpa using this

/-- Strides of the components in row-major order. -/
theorem accStrides_reverse_cons (n : Int) (s : List Int) :
    (accStrides 1 (n :: s).reverse).reverse = [1].map (· * s.prod) ++ (accStrides 1 s.reverse).reverse := by
  simp [accStrides_append, accStrides]

theorem addressing_acc_reverse (s : List Int) :
    Addressing s (accStrides 1 s.reverse).reverse s.prod := by
  induction s with
  | nil => simpa [accStrides] using addressing_nil
  | cons n s ih =>
    rw [accStrides_reverse_cons]
    simpa using (addressing_single n).append_slow ih

theorem fills_acc_reverse {s : List Int} (hp : Pos s) :
    Fills s (accStrides 1 s.reverse).reverse s.prod := by
  induction s with
  | nil => simpa [accStrides] using fills_nil
  | cons n s ih =>
    have hn := Pos.cons.1 hp
    rw [accStrides_reverse_cons]
    simpa using Fills.append_slow (by simp) (fills_single n) (ih hn.2) (prod_pos_of_pos hn.2)

theorem nbComp_eq (l : FieldLayout) : l.nbComp = l.comps.prod := getSize_eq_prod _

theorem shape_subPt (l : FieldLayout) : l.shape .subPt = (l.comps ++ [l.nbSub]) ++ l.pixShape := rfl

theorem strides_col (l : FieldLayout) (h : l.order = .colMajor) :
    l.strides .subPt 1 = .ok ((accStrides 1 l.comps ++ [1].map (· * l.comps.prod)) ++
      l.pixStrides.map (· * (l.comps.prod * l.nbSub))) := by
  simp [strides, subPtStrides, componentsStrides, h, pixelsStrides, nbDof, nbComp_eq]

theorem strides_row (l : FieldLayout) (h : l.order = .rowMajor) :
    l.strides .subPt 1 = .ok (((accStrides 1 l.comps.reverse).reverse.map (· * l.nbSub) ++ [1]).map
      (· * l.nbBuf) ++ l.pixStrides) := by
  simp [strides, subPtStrides, componentsStrides, h, pixelsStrides]

end Layout.FieldLayout

theorem addressing_of_nested {nb strides : List Int} {m : Int} (h : NestedStrides nb strides)
    (hb : ∀ c, InBox nb c → 0 ≤ dot strides c ∧ dot strides c < m) : Addressing nb strides m := by
  obtain ⟨hs, bx, hp, hsd⟩ := h
  refine ⟨hs, hb, ?_⟩
  intro c c' hc hc' he
  have hd : ∀ d, InBox nb d → InBox (pick bx nb) (pick bx d) ∧
      dot (pick bx strides) (pick bx d) = dot strides d := fun d hd =>
    ⟨(inBox_pick hp hd.length_eq).2 hd,
      dot_pick (by rw [hs]; exact hp) (by rw [hs, hd.length_eq])⟩
  have := hsd.dot_inj (hd c hc).1 (hd c' hc').1 (by rw [(hd c hc).2, (hd c' hc').2, he])
  exact pick_inj (by rw [hc.length_eq]; exact hp) (by rw [hc.length_eq, hc'.length_eq]) this

end Verif
