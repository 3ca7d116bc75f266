import Verif.Model.PyField
import Verif.Lemmas.RawMemory
import Verif.Lemmas.Address
/-
Lemmas on assignment of arrays to fields within one memory.
-/
namespace Verif.PyField
open Verif Verif.Ccoord Verif.Layout Verif.RawMemory Verif.Numpy

/-- The copies along a list of indices within one memory, if every cell of the output that is also shown by
the input is assigned its own value. -/
theorem foldRes_copyAt {α : Type} {item p q : Int} {is os : List Int} (l : List (List Int)) (heap : Mem α)
    (hacc : ∀ i ∈ l, (heap (p + item * dot is i)).isSome ∧ (heap (q + item * dot os i)).isSome)
    (hinj : ∀ i ∈ l, ∀ j ∈ l, q + item * dot os i = q + item * dot os j → i = j)
    (hni : ∀ i ∈ l, ∀ j ∈ l, p + item * dot is i = q + item * dot os j →
      p + item * dot is j = q + item * dot os j) :
    ∃ heap', foldRes (copyBodyAt item p q is os) l heap = .ok heap' ∧
      (∀ i ∈ l, heap' (q + item * dot os i) = heap (p + item * dot is i)) ∧
      (∀ x, (∀ i ∈ l, q + item * dot os i ≠ x) → heap' x = heap x) := by
  induction l generalizing heap with
  | nil => exact ⟨heap, rfl, by simp, by simp⟩
  | cons i l ih =>
    obtain ⟨x, hx⟩ := Option.isSome_iff_exists.1 (hacc i (by simp)).1
    obtain ⟨y, hy⟩ := Option.isSome_iff_exists.1 (hacc i (by simp)).2
    have hsome : ∀ z, ((heap.write (q + item * dot os i) x) z).isSome = (heap z).isSome := by
      intro z; simp only [Mem.write]; split
      · rename_i h; simp [h, hy]
      · rfl
    have hsame : ∀ j ∈ l, (heap.write (q + item * dot os i) x) (p + item * dot is j) =
        heap (p + item * dot is j) := by
      intro j hj
      simp only [Mem.write]; split
      · rename_i h
        rw [h, ← hx, hni j (by simp [hj]) i (by simp) h]
      · rfl
    obtain ⟨h', k1, k2, k3⟩ := ih (heap.write (q + item * dot os i) x)
      (fun j hj => by rw [hsome, hsome]; exact hacc j (by simp [hj]))
      (fun j hj k hk => hinj j (by simp [hj]) k (by simp [hk]))
      (fun j hj k hk => hni j (by simp [hj]) k (by simp [hk]))
    refine ⟨h', ?_, ?_, ?_⟩
    · simp only [foldRes, copyBodyAt, linearIndex_eq_dot, hx, hy, Res.ok_bind]
      exact k1
    · intro j hj
      rcases List.mem_cons.1 hj with e | hj'
      · subst e
        by_cases hm : j ∈ l
        · rw [k2 j hm, hsame j hm]
        · rw [k3 _ (fun k hk he => hm (hinj k (by simp [hk]) j (by simp) he ▸ hk)), hx]
          simp [Mem.write]
      · rw [k2 j hj', hsame j hj']
    · intro z hz
      rw [k3 z (fun j hj => hz j (by simp [hj]))]
      simp [Mem.write, Ne.symm (hz i (by simp))]

/-- The copies along a list of indices are undefined if some cell may not be accessed. -/
theorem foldRes_copyAt_ub {α : Type} {item p q : Int} {is os : List Int} (l : List (List Int)) (heap : Mem α)
    (h : ∃ i ∈ l, (heap (p + item * dot is i)).isSome = false ∨ (heap (q + item * dot os i)).isSome = false) :
    foldRes (copyBodyAt item p q is os) l heap = .ub := by
  induction l generalizing heap with
  | nil => simp at h
  | cons i l ih =>
    simp only [foldRes, copyBodyAt, linearIndex_eq_dot]
    cases hi : heap (p + item * dot is i) with
    | none => rfl
    | some x =>
      cases ho : heap (q + item * dot os i) with
      | none => rfl
      | some y =>
        have hsome : ∀ z, ((heap.write (q + item * dot os i) x) z).isSome = (heap z).isSome := by
          intro z; simp only [Mem.write]; split
          · rename_i h; simp [h, ho]
          · rfl
        simp only [Res.ok_bind]
        obtain ⟨j, hj, hb⟩ := h
        rcases List.mem_cons.1 hj with e | hj'
        · subst e; simp [hi, ho] at hb
        · exact ih _ ⟨j, hj', by rw [hsome, hsome]; exact hb⟩

/-- `strided_copy` within one memory is the copies along the box. -/
theorem stridedCopyAt_eq {α : Type} {srt : SortFn} (hsrt : SortSpec srt) {item p q : Int}
    {shape is os : List Int} (heap : Mem α) (hp : Pos shape) (hne : shape ≠ [])
    (hi : is.length = shape.length) (ho : os.length = shape.length) :
    ∃ l : List (List Int), (∀ i, i ∈ l ↔ InBox shape i) ∧
      stridedCopyAt srt item shape is os p q heap = foldRes (copyBodyAt item p q is os) l heap := by
  have hperm := DynamicPixels.axes_perm hsrt shape os shape.length
  refine ⟨boxList shape _, fun i => mem_boxList hp hperm, ?_⟩
  simp only [stridedCopyAt, hi, ho, ne_eq, not_true_eq_false, if_false, computeAxesOrder]
  rw [if_neg (by omega), Res.ok_bind, visit_eq hp hperm hne]

/-- Non-negative multiples of the size of an element are divided exactly. -/
theorem elemStride_exact {item b : Int} (h0 : 0 ≤ b) (h1 : b < 2 ^ 63) (hi : 0 < item) (hd : item ∣ b) :
    item * elemStride item b = b := by
  have hm : b % 2 ^ 64 = b := Int.emod_eq_of_lt h0 (by omega)
  have hq : b / item ≤ b := Int.ediv_le_self _ h0
  rw [elemStride, hm, if_pos (by omega), Int.mul_ediv_cancel' hd]

theorem dot_elemStride {item : Int} (s c : List Int) (h : ∀ b ∈ s, item * elemStride item b = b) :
    item * dot (s.map (elemStride item)) c = dot s c := by
  induction s generalizing c with
  | nil => simp [dot]
  | cons b s ih =>
    cases c with
    | nil => simp [dot]
    | cons x c =>
      have h1 := h b (by simp)
      have h2 := ih c (fun b hb => h b (by simp [hb]))
      simp only [List.map_cons, dot, mul_add, h2]
      rw [← mul_assoc, h1]

theorem inBox_zero {sh : List Int} (hp : Pos sh) : InBox sh (List.replicate sh.length 0) := by
  induction sh with
  | nil => simp [InBox]
  | cons m sh ih =>
    simp only [List.length_cons, List.replicate_succ, InBox]
    exact ⟨by omega, hp m (by simp), ih fun x hx => hp x (by simp [hx])⟩

/-- The tuple with a one at one axis is in the box, if the axis has two elements. -/
theorem inBox_unit {sh : List Int} (hp : Pos sh) {k : Nat} {n : Int} (h : sh[k]? = some n) (h2 : 2 ≤ n) :
    InBox sh ((List.replicate sh.length (0 : Int)).set k 1) := by
  induction sh generalizing k with
  | nil => simp at h
  | cons m sh ih =>
    have hm : 0 < m := hp m (by simp)
    have hp' : Pos sh := fun x hx => hp x (by simp [hx])
    cases k with
    | zero =>
      simp only [List.getElem?_cons_zero, Option.some.injEq] at h
      subst h
      simp only [List.length_cons, List.replicate_succ, List.set_cons_zero, InBox]
      exact ⟨by omega, by omega, inBox_zero hp'⟩
    | succ k =>
      simp only [List.length_cons, List.replicate_succ, List.set_cons_succ, InBox]
      exact ⟨by omega, hm, ih hp' (by simpa using h)⟩

theorem dot_zero_tuple (ss : List Int) : dot ss (List.replicate ss.length 0) = 0 := by
  induction ss with
  | nil => simp [dot]
  | cons x ss ih => simp only [List.length_cons, List.replicate_succ, dot, ih]; ring

theorem dot_unitTuple {ss : List Int} {k : Nat} {s : Int} (h : ss[k]? = some s) :
    dot ss ((List.replicate ss.length (0 : Int)).set k 1) = s := by
  induction ss generalizing k with
  | nil => simp at h
  | cons x ss ih =>
    cases k with
    | zero =>
      simp only [List.getElem?_cons_zero, Option.some.injEq] at h
      subst h
      simp only [List.length_cons, List.replicate_succ, List.set_cons_zero, dot, dot_zero_tuple]; ring
    | succ k =>
      simp only [List.length_cons, List.replicate_succ, List.set_cons_succ, dot]
      rw [ih (by simpa using h)]; ring

end Verif.PyField
