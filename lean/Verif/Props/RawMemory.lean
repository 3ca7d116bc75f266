import Verif.Lemmas.RawMemory
/-
Properties C08 and C09: strided copies and the odometer loop.
-/
namespace Verif.Props
open Verif Verif.Ccoord Verif.RawMemory

/-! ## C09 -/

/-- **C09** A loop over a box with positive extents and any order of the axes visits every
multi-index of the box exactly once, with the first axis of the order running fastest. -/
theorem C09_odometer (shape : List Int) (axes : List Nat) (hp : Pos shape) (hne : shape ≠ [])
    (hperm : axes.Perm (List.range shape.length)) :
    ∃ L, visited shape axes = .ok L ∧ (∀ idx, idx ∈ L ↔ InBox shape idx) ∧ L.Nodup ∧
      (L.length : Int) = nbPixels shape ∧
      ∀ (k : Nat) (hk : k < L.length),
        colMajorNumber (pick axes shape) (List.replicate axes.length 0) (pick axes L[k]) = k := by
  refine ⟨boxList shape axes, ?_, fun idx => mem_boxList hp hperm, nodup_boxList hp hperm, ?_, ?_⟩
  · rw [visited, visit_eq hp hperm hne, foldRes_collect]; simp
  · have := prod_pos_of_pos hp
    rw [nbPixels_eq_prod]; simp [boxList]; omega
  · intro k hk
    have h1 : (k : Int) < shape.prod := by
      have := prod_pos_of_pos hp
      simp [boxList] at hk; omega
    have := rank_unrank hp hperm (k := k) (by omega) h1
    rw [rank, zeros, pick_length] at this
    simp only [boxList, List.getElem_map, List.getElem_range]
    exact this

example : Pos [2, 3] ∧ ([1, 0] : List Nat).Perm (List.range 2) ∧
    visited [2, 3] [1, 0] = .ok [[0, 0], [0, 1], [0, 2], [1, 0], [1, 1], [1, 2]] := by decide

/-- **C09** A box with a vanishing extent (and no negative one) is not visited at all. -/
theorem C09_empty_box (shape : List Int) (axes : List Nat) (h : (0 : Int) ∈ shape) :
    visited shape axes = .ok [] := by
  have : getSize shape = 0 := by
    exact getSize_eq_zero h
  simp [visited, visit, this, visitLoop]

example : visited [2, 0, 3] [0, 1, 2] = .ok [] := by decide

/-- **C09** A shape without any axis is undefined behaviour: the iterator reads the first element of
an empty axes order. -/
theorem C09_no_axes : visited [] [] = .ub := by decide

/-! ## C08 -/

/-- **C08** Copying with strides: if the cells addressed are accessible, every output element
addressed has the value of an input element with a multi-index at that output address (so
of *the* input element with the same multi-index if output addresses are distinct), and nothing else is
modified. -/
theorem C08_strided_copy {α : Type} {srt : SortFn} (hsrt : SortSpec srt)
    (shape inStrides outStrides : List Int) (inp out : Mem α) (hp : Pos shape) (hne : shape ≠ [])
    (hi : inStrides.length = shape.length) (ho : outStrides.length = shape.length)
    (hin : ∀ c, InBox shape c → (inp (dot inStrides c)).isSome)
    (hout : ∀ c, InBox shape c → (out (dot outStrides c)).isSome) :
    ∃ out', stridedCopy srt shape inStrides outStrides inp out = .ok out' ∧
      ((∀ c c', InBox shape c → InBox shape c' → dot outStrides c = dot outStrides c' → c = c') →
        ∀ c, InBox shape c → out' (dot outStrides c) = inp (dot inStrides c)) ∧
      (∀ c, InBox shape c → ∃ c', InBox shape c' ∧ dot outStrides c' = dot outStrides c ∧
        out' (dot outStrides c) = inp (dot inStrides c')) ∧
      (∀ a, (∀ c, InBox shape c → dot outStrides c ≠ a) → out' a = out a) := by
  have hperm := DynamicPixels.axes_perm hsrt shape outStrides shape.length
  have hm := fun c => mem_boxList (idx := c) hp hperm
  obtain ⟨out', h1, -, h3, h4⟩ := (foldRes_copy (is := inStrides) (os := outStrides) (inp := inp)
    (boxList shape _) out).1 (fun i hi => ⟨hin i ((hm i).1 hi), hout i ((hm i).1 hi)⟩)
  refine ⟨out', ?_, ?_, ?_, ?_⟩
  · simp only [stridedCopy, hi, ho, ne_eq, not_true_eq_false, if_false, computeAxesOrder]
    rw [if_neg (by omega), Res.ok_bind, visit_eq hp hperm hne, h1]
  · intro hinj c hc
    obtain ⟨j, hj, he, hv⟩ := h4 c ((hm c).2 hc)
    rw [hv, hinj j c ((hm j).1 hj) hc he]
  · intro c hc
    obtain ⟨j, hj, he, hv⟩ := h4 c ((hm c).2 hc)
    exact ⟨j, (hm j).1 hj, he, hv⟩
  · intro a ha
    exact h3 a (fun i hi => ha i ((hm i).1 hi))

/-- A buffer holding a list. -/
def bufferOf {α : Type} (l : List α) : Mem α := fun a => if 0 ≤ a then l[a.toNat]? else none

example : ∃ out', stridedCopy stableSort [2, 3] [1, 2] [3, 1] (bufferOf [10, 11, 12, 13, 14, 15])
      (bufferOf [0, 0, 0, 0, 0, 0, 7]) = .ok out' ∧
    (List.range 7).map (fun k : Nat => out' k) = [10, 12, 14, 11, 13, 15, 7].map some := by
  refine ⟨_, rfl, by decide⟩

/-- **C08** A cell that may not be accessed makes the copy undefined; so the accessibility
hypotheses of `C08_strided_copy` are exactly the precondition of the function. -/
theorem C08_out_of_bounds {α : Type} {srt : SortFn} (hsrt : SortSpec srt)
    (shape inStrides outStrides : List Int) (inp out : Mem α) (hp : Pos shape) (hne : shape ≠ [])
    (hi : inStrides.length = shape.length) (ho : outStrides.length = shape.length)
    (c : List Int) (hc : InBox shape c)
    (hbad : inp (dot inStrides c) = none ∨ out (dot outStrides c) = none) :
    stridedCopy srt shape inStrides outStrides inp out = .ub := by
  have hperm := DynamicPixels.axes_perm hsrt shape outStrides shape.length
  have := (foldRes_copy (is := inStrides) (os := outStrides) (inp := inp)
    (boxList shape _) out).2 ⟨c, (mem_boxList hp hperm).2 hc, by
      rcases hbad with h | h <;> simp [h]⟩
  simp only [stridedCopy, hi, ho, ne_eq, not_true_eq_false, if_false, computeAxesOrder]
  rw [if_neg (by omega), Res.ok_bind, visit_eq hp hperm hne, this]

example : stridedCopy stableSort [2, 3] [1, 2] [3, 1] (bufferOf [10, 11, 12, 13, 14])
      (bufferOf [0, 0, 0, 0, 0, 0, 7]) = .ub :=
  C08_out_of_bounds stableSort_spec _ _ _ _ _ (by decide) (by decide) (by decide) (by decide)
    [1, 2] (by decide) (by decide)

/-- **C08** Strides of a dimension other than that of the shape are rejected before anything is
copied. -/
theorem C08_dimension_mismatch {α : Type} (srt : SortFn) (shape inStrides outStrides : List Int)
    (inp out : Mem α) (h : inStrides.length ≠ shape.length ∨ outStrides.length ≠ shape.length) :
    stridedCopy srt shape inStrides outStrides inp out = .throw .runtimeError := by
  unfold stridedCopy
  split
  · rfl
  · split
    · rfl
    · omega

example : ([1] : List Int).length ≠ [2, 3].length := by decide

/-- **C08** Shapes with a vanishing extent: nothing is written, whatever the buffers. -/
theorem C08_empty {α : Type} (srt : SortFn) (shape inStrides outStrides : List Int)
    (inp out : Mem α) (hi : inStrides.length = shape.length) (ho : outStrides.length = shape.length)
    (h : (0 : Int) ∈ shape) : stridedCopy srt shape inStrides outStrides inp out = .ok out := by
  have hs : getSize shape = 0 := by
    exact getSize_eq_zero h
  simp only [stridedCopy, hi, ho, ne_eq, not_true_eq_false, if_false, computeAxesOrder]
  rw [if_neg (by omega), Res.ok_bind]
  simp [visit, hs, visitLoop]

example : ∃ shape : List Int, (0 : Int) ∈ shape ∧ shape.length = 2 := ⟨[3, 0], by decide, rfl⟩

/-- **C08** A shape without axes (a single scalar) is undefined behaviour; the claim of
`C08_strided_copy` therefore cannot be extended to it. -/
theorem C08_no_axes {α : Type} (srt : SortFn) (hsrt : SortSpec srt) (inp out : Mem α) :
    stridedCopy srt [] [] [] inp out = .ub := by
  have h := DynamicPixels.axes_perm hsrt [] [] 0
  have h' : srt (axesLt [] []) [] = [] := by simpa using h
  simp only [stridedCopy, computeAxesOrder, List.length_nil, ne_eq, not_true_eq_false, if_false,
    lt_self_iff_false, List.range_zero, h', Res.ok_bind, visit, getSize]
  simp only [show ¬ ((1 : Int) < 0) by decide, if_false, Int.toNat_one, visitLoop, incr]
  simp only [copyBody]
  split <;> simp

example : stridedCopy stableSort [] [] [] (bufferOf [5]) (bufferOf [0]) = .ub := C08_no_axes _ stableSort_spec _ _

end Verif.Props
