import Verif.Spec.PyArrays
import Verif.Lemmas.Address
import Verif.Lemmas.RawMemory
/-
Lemmas on the indices of the views `s` and `p`, on the indexing of numpy, and on loads and stores.
-/
namespace Verif.PyArrays
open Verif Verif.Ccoord Verif.Layout Verif.Layout.FieldLayout Verif.RawMemory Verif.Numpy Verif.Collection Verif.PySession

/-! ### Indices of the views -/

theorem shapeP_cons2 (n m : Int) (comps : List Int) (nb : Int) (grid : List Int) :
    shapeP (n :: m :: comps) nb grid = n :: shapeP (m :: comps) nb grid := rfl

theorem toP_cons2 (n m : Int) (comps : List Int) (i : Int) (y : List Int) :
    toP (n :: m :: comps) (i :: y) = i :: toP (m :: comps) y := by cases y <;> rfl

theorem fromP_cons2 (n m : Int) (comps : List Int) (i : Int) (y : List Int) :
    fromP (n :: m :: comps) (i :: y) = i :: fromP (m :: comps) y := rfl

theorem toP_box : ∀ {comps : List Int} {nb : Int} {grid y : List Int}, Pos comps → (comps = [] → nb = 1) →
    InBox (comps ++ nb :: grid) y →
    InBox (shapeP comps nb grid) (toP comps y) ∧ fromP comps (toP comps y) = y
  | [], nb, grid, y, _, h1, h => by
      have := h1 rfl; subst this
      match y, h with
      | q :: x, h =>
        have h' : 0 ≤ q ∧ q < 1 ∧ InBox grid x := h
        have : q = 0 := by omega
        subst this
        exact ⟨h'.2.2, rfl⟩
  | [n], nb, grid, y, hp, _, h => by
      match y, h with
      | i :: q :: x, h =>
        have h' : 0 ≤ i ∧ i < n ∧ 0 ≤ q ∧ q < nb ∧ InBox grid x := h
        obtain ⟨h1, h2, h3, h4, h5⟩ := h'
        refine ⟨⟨by have := mul_nonneg (show (0 : Int) ≤ n by omega) h3; omega, ?_, h5⟩, ?_⟩
        · have : n * q ≤ n * (nb - 1) := by
            apply mul_le_mul_of_nonneg_left <;> omega
          have e : n * (nb - 1) = n * nb - n := by ring
          omega
        · simp only [toP, fromP]
          rw [Int.add_mul_emod_self_left, Int.emod_eq_of_lt h1 h2, Int.add_mul_ediv_left _ _ (by omega),
            Int.ediv_eq_zero_of_lt h1 h2, zero_add]
  | n :: m :: comps, nb, grid, y, hp, _, h => by
      match y, h with
      | i :: y, h =>
        have h' : 0 ≤ i ∧ i < n ∧ InBox ((m :: comps) ++ nb :: grid) y := h
        obtain ⟨k1, k2⟩ := toP_box (comps := m :: comps) (fun x hx => hp x (by simp [hx])) (by simp) h'.2.2
        rw [toP_cons2, shapeP_cons2, fromP_cons2, k2]
        exact ⟨⟨h'.1, h'.2.1, k1⟩, rfl⟩

theorem fromP_box : ∀ {comps : List Int} {nb : Int} {grid z : List Int}, Pos comps → (comps = [] → nb = 1) →
    InBox (shapeP comps nb grid) z →
    InBox (comps ++ nb :: grid) (fromP comps z) ∧ toP comps (fromP comps z) = z
  | [], nb, grid, z, _, h1, h => by
      have := h1 rfl; subst this
      exact ⟨⟨le_refl _, by omega, h⟩, rfl⟩
  | [n], nb, grid, z, hp, _, h => by
      match z, h with
      | i :: x, h =>
        have h' : 0 ≤ i ∧ i < n * nb ∧ InBox grid x := h
        obtain ⟨h1, h2, h3⟩ := h'
        have hn : 0 < n := hp n (by simp)
        refine ⟨⟨Int.emod_nonneg _ (by omega), Int.emod_lt_of_pos _ hn, Int.ediv_nonneg h1 (by omega), ?_, h3⟩, ?_⟩
        · exact Int.ediv_lt_of_lt_mul hn (by rw [mul_comm]; exact h2)
        · simp only [toP, fromP]
          rw [Int.emod_add_mul_ediv]
  | n :: m :: comps, nb, grid, z, hp, _, h => by
      match z, h with
      | i :: z, h =>
        have h' : 0 ≤ i ∧ i < n ∧ InBox (shapeP (m :: comps) nb grid) z := h
        obtain ⟨k1, k2⟩ := fromP_box (comps := m :: comps) (fun x hx => hp x (by simp [hx])) (by simp) h'.2.2
        rw [fromP_cons2, toP_cons2, k2]
        exact ⟨⟨h'.1, h'.2.1, k1⟩, rfl⟩

/-- The index of `p` has the address of the index of `s`. -/
theorem dot_toP : ∀ {comps : List Int} {acc nb : Int} {grid y P : List Int}, (comps = [] → nb = 1) →
    InBox (comps ++ nb :: grid) y →
    dot (accStrides acc comps ++ P) (toP comps y) = dot (accStrides acc comps ++ (acc * comps.prod) :: P) y
  | [], acc, nb, grid, y, P, h1, h => by
      have := h1 rfl; subst this
      match y, h with
      | q :: x, h =>
        have h' : 0 ≤ q ∧ q < 1 ∧ InBox grid x := h
        have : q = 0 := by omega
        subst this
        simp [toP, accStrides, dot]
  | [n], acc, nb, grid, y, P, _, h => by
      match y, h with
      | i :: q :: x, h =>
        simp only [toP, accStrides, dot, List.cons_append, List.nil_append, List.prod_cons, List.prod_nil]
        ring
  | n :: m :: comps, acc, nb, grid, y, P, _, h => by
      match y, h with
      | i :: y, h =>
        have h' : 0 ≤ i ∧ i < n ∧ InBox ((m :: comps) ++ nb :: grid) y := h
        have := dot_toP (comps := m :: comps) (acc := acc * n) (P := P) (by simp) h'.2.2
        rw [toP_cons2]
        simp only [accStrides, List.cons_append, dot] at this ⊢
        rw [this, List.prod_cons, List.prod_cons]
        simp only [List.prod_cons, mul_assoc]

theorem toP_one : ∀ {comps grid y : List Int}, InBox (comps ++ 1 :: grid) y →
    ∃ cc x, y = cc ++ 0 :: x ∧ InBox comps cc ∧ toP comps y = cc ++ x
  | [], grid, [], h => by simp [InBox] at h
  | [], grid, q :: x, h => ⟨[], x, by obtain ⟨h1, h2, _⟩ := h; rw [show q = 0 by omega]; rfl, trivial, rfl⟩
  | n :: comps, grid, [], h => by simp [InBox] at h
  | [n], grid, [i], h => by simp [InBox] at h
  | [n], grid, i :: q :: x, h => by
      obtain ⟨h1, h2, h3, h4, _⟩ := h
      obtain rfl : q = 0 := by omega
      exact ⟨[i], x, rfl, ⟨h1, h2, trivial⟩, by simp [toP]⟩
  | n :: m :: comps, grid, i :: y, h => by
      obtain ⟨h1, h2, h3⟩ := h
      obtain ⟨cc, x, e1, e2, e3⟩ := toP_one (comps := m :: comps) h3
      exact ⟨i :: cc, x, by rw [e1]; rfl, ⟨h1, h2, e2⟩, by rw [toP_cons2, e3]; rfl⟩

theorem shapeP_one : ∀ (comps grid : List Int), shapeP comps 1 grid = comps ++ grid
  | [], grid => rfl
  | [n], grid => by simp [shapeP]
  | n :: m :: comps, grid => by rw [shapeP_cons2, shapeP_one (m :: comps) grid]; rfl

theorem shapeP_scale : ∀ {comps : List Int} (nb : Int) (grid : List Int), comps ≠ [] →
    shapeP comps nb grid = scaleLast nb comps ++ grid
  | [], _, _, h => absurd rfl h
  | [n], nb, grid, _ => rfl
  | n :: m :: comps, nb, grid, _ => by
      rw [shapeP_cons2, shapeP_scale (comps := m :: comps) nb grid (by simp)]; rfl

/-- The shape of the pixel view of a field. -/
theorem shape_pixel (l : FieldLayout) (hs : 1 ≤ l.nbSub) (h : l.comps = [] → l.nbSub = 1) :
    l.shape .pixel = shapeP l.comps l.nbSub l.pixShape := by
  unfold FieldLayout.shape FieldLayout.subPtShape
  by_cases h1 : l.nbSub = 1
  · rw [h1, shapeP_one]; simp
  · have h2 : l.nbSub > 1 := by omega
    have h3 : l.comps ≠ [] := fun e => h1 (h e)
    have h4 : l.comps.length ≠ 0 := fun e => h3 (List.length_eq_zero_iff.1 e)
    simp only [h2, h4, if_true, if_false]
    exact (shapeP_scale _ _ h3).symm

/-! ### Indexing of numpy -/

theorem mem_npAll : ∀ {shape idx : List Int}, idx ∈ npAll shape ↔ InBox shape idx
  | [], idx => by cases idx <;> simp [npAll, InBox]
  | n :: shape, idx => by
      simp only [npAll, List.mem_flatMap, List.mem_range, List.mem_map]
      constructor
      · rintro ⟨i, hi, r, hr, rfl⟩
        exact ⟨by omega, by omega, mem_npAll.1 hr⟩
      · intro h
        match idx, h with
        | i :: r, h =>
          have h' : 0 ≤ i ∧ i < n ∧ InBox shape r := h
          exact ⟨i.toNat, by omega, r, mem_npAll.2 h'.2.2, by simp [h'.1]⟩

theorem npAxis_some {n i j : Int} (h : npAxis n i = some j) : 0 ≤ j ∧ j < n := by
  unfold npAxis at h
  split at h
  · cases h; assumption
  · split at h
    · cases h; omega
    · cases h

theorem npIndex_box : ∀ {shape idx i : List Int}, npIndex shape idx = some i →
    i.length ≤ shape.length ∧ ∀ r, InBox shape (i ++ r) ↔ InBox (shape.drop i.length) r
  | shape, [], i, h => by
      simp only [npIndex, Option.some.injEq] at h
      subst h; simp
  | [], _ :: _, i, h => by simp [npIndex] at h
  | n :: shape, k :: idx, i, h => by
      unfold npIndex at h
      split at h
      · rename_i j js hj hjs
        cases h
        obtain ⟨h1, h2⟩ := npIndex_box hjs
        have h3 := npAxis_some hj
        refine ⟨by simpa using h1, fun r => ?_⟩
        have : InBox (n :: shape) (j :: (js ++ r)) ↔ 0 ≤ j ∧ j < n ∧ InBox shape (js ++ r) := Iff.rfl
        simp only [List.cons_append, List.length_cons, List.drop_succ_cons, this, h2, h3, true_and]
      · cases h

/-- The elements of a part of an array. -/
theorem npIndex_self : ∀ {shape z : List Int}, InBox shape z → npIndex shape z = some z
  | [], [], _ => rfl
  | [], _ :: _, h => by simp [InBox] at h
  | _ :: _, [], h => by simp [InBox] at h
  | n :: shape, i :: z, h => by
      obtain ⟨h1, h2, h3⟩ := h
      simp only [npIndex, npAxis, if_pos (And.intro h1 h2), npIndex_self h3]

theorem mem_part {shape idx i z : List Int} (h : npIndex shape idx = some i) (hz : InBox shape z) :
    i <+: z ↔ ∃ r ∈ npAll (shape.drop i.length), z = i ++ r := by
  constructor
  · rintro ⟨r, rfl⟩
    exact ⟨r, mem_npAll.2 ((npIndex_box h).2 r |>.1 hz), rfl⟩
  · rintro ⟨r, _, rfl⟩
    exact ⟨r, rfl⟩

/-! ### Loads and stores -/

variable {α : Type}

theorem load_mul {vals : List α} {item k : Int} {v : α} (hi : 0 < item) (hk : 0 ≤ k)
    (h : vals[k.toNat]? = some v) : load vals item (item * k) = .ok v := by
  unfold load
  rw [if_pos ⟨Int.mul_emod_right _ _, by rw [Int.mul_ediv_cancel_left _ (by omega)]; exact hk⟩,
    Int.mul_ediv_cancel_left _ (by omega), h]

theorem loadAll_map {β : Type} {vals : List α} {item : Int} {ad : β → Int} {g : β → α} :
    ∀ (l : List β), (∀ r ∈ l, load vals item (ad r) = .ok (g r)) → loadAll vals item (l.map ad) = .ok (l.map g)
  | [], _ => rfl
  | r :: l, h => by
      simp only [List.map_cons, loadAll]
      rw [h r (by simp), loadAll_map l (fun r hr => h r (by simp [hr]))]
      rfl

theorem storeAll_mul {β : Type} {item : Int} {ad : β → Int} {v : α} (hi : 0 < item) :
    ∀ (l : List β) (vals : List α), (∀ r ∈ l, 0 ≤ ad r ∧ ad r < vals.length) →
      ∃ vals', storeAll item v (l.map fun r => item * ad r) vals = .ok vals' ∧ vals'.length = vals.length ∧
        ∀ k : Nat, k < vals.length →
          ((∃ r ∈ l, ad r = k) → vals'[k]? = some v) ∧ ((∀ r ∈ l, ad r ≠ k) → vals'[k]? = vals[k]?)
  | [], vals, _ => ⟨vals, rfl, rfl, fun k _ => ⟨by simp, fun _ => rfl⟩⟩
  | r :: l, vals, h => by
      have hr := h r (by simp)
      have hs : store vals item (item * ad r) v = .ok (vals.set (ad r).toNat v) := by
        unfold store
        have e : item * ad r / item = ad r := Int.mul_ediv_cancel_left _ (by omega)
        rw [e, if_pos ⟨Int.mul_emod_right _ _, hr.1, hr.2⟩]
      obtain ⟨vals', h1, h2, h3⟩ := storeAll_mul (ad := ad) (v := v) hi l (vals.set (ad r).toNat v)
        (fun q hq => by rw [List.length_set]; exact h q (by simp [hq]))
      refine ⟨vals', ?_, by rw [h2, List.length_set], ?_⟩
      · simp only [List.map_cons, storeAll]
        rw [hs, Res.ok_bind]
        exact h1
      · intro k hk
        obtain ⟨k1, k2⟩ := h3 k (by rw [List.length_set]; exact hk)
        by_cases hl : ∃ q ∈ l, ad q = k
        · refine ⟨fun _ => k1 hl, fun hn => ?_⟩
          obtain ⟨q, hq, e⟩ := hl
          exact absurd e (hn q (by simp [hq]))
        · have hl' : ∀ q ∈ l, ad q ≠ k := fun q hq e => hl ⟨q, hq, e⟩
          constructor
          · rintro ⟨q, hq, e⟩
            rcases List.mem_cons.1 hq with rfl | hq
            · rw [k2 hl', show (ad q).toNat = k by omega, List.getElem?_set_self hk]
            · exact absurd e (hl' q hq)
          · intro hn
            have hne : (ad r).toNat ≠ k := fun e => hn r (by simp) (by omega)
            rw [k2 hl', List.getElem?_set_ne hne]

end Verif.PyArrays
