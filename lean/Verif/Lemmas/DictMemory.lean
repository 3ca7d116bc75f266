import Verif.Model.DictMemory
import Verif.Lemmas.SMap
import Mathlib.Tactic.Linarith
/-
The invariant of reference counting, preserved by every statement.
-/
namespace Verif
namespace MState
variable {R : Type}

/-- The number of pointers recorded for the value at `n`. -/
def countOf (heap : List (MNode R)) (n : Nat) : Nat := (heap[n]?.map (·.count)).getD 0

/-- The recorded number is the number of pointers in `ext` and in values that exist, and exactly the values with a pointer
exist. -/
structure Inv (heap : List (MNode R)) (ext : List Nat) : Prop where
  counts : ∀ n, countOf heap n = ext.count n + (heap.flatMap MNode.kids).count n
  alive : ∀ (n : Nat) (nd : MNode R), heap[n]? = some nd → (nd.val.isSome ↔ 0 < nd.count)

theorem countOf_set {heap : List (MNode R)} {n : Nat} {nd : MNode R} (hn : n < heap.length) (m : Nat) :
    countOf (heap.set n nd) m = if m = n then nd.count else countOf heap m := by
  unfold countOf
  rw [List.getElem?_set]
  by_cases h : n = m
  · subst h; simp [hn]
  · simp [h, Ne.symm h]

theorem count_flatMap_set {α : Type} (f : α → List Nat) {heap : List α} : ∀ {n : Nat} {nd : α}, heap[n]? = some nd → ∀ (nd' : α) (m : Nat),
    ((heap.set n nd').flatMap f).count m + (f nd).count m = (heap.flatMap f).count m + (f nd').count m := by
  induction heap with
  | nil => intro n nd h; simp at h
  | cons a heap ih =>
    intro n nd h nd' m
    cases n with
    | zero =>
      simp only [List.getElem?_cons_zero, Option.some.injEq] at h
      subst h
      simp only [List.set_cons_zero, List.flatMap_cons, List.count_append]
      omega
    | succ n =>
      simp only [List.getElem?_cons_succ] at h
      have := ih h nd' m
      simp only [List.set_cons_succ, List.flatMap_cons, List.count_append]
      omega

theorem total_set {heap : List (MNode R)} : ∀ {n : Nat} {nd : MNode R}, heap[n]? = some nd → ∀ nd' : MNode R,
    total (heap.set n nd') + nd.count = total heap + nd'.count := by
  unfold total
  induction heap with
  | nil => intro n nd h; simp at h
  | cons a heap ih =>
    intro n nd h nd'
    cases n with
    | zero =>
      simp only [List.getElem?_cons_zero, Option.some.injEq] at h
      subst h
      simp only [List.set_cons_zero, List.map_cons, List.sum_cons]
      omega
    | succ n =>
      simp only [List.getElem?_cons_succ] at h
      have := ih h nd'
      simp only [List.set_cons_succ, List.map_cons, List.sum_cons]
      omega

theorem countOf_some {heap : List (MNode R)} {n : Nat} {nd : MNode R} (h : heap[n]? = some nd) :
    countOf heap n = nd.count := by simp [countOf, h]

/-- What is pointed to exists. -/
theorem Inv.live {heap : List (MNode R)} {ext : List Nat} (hi : Inv heap ext) {n : Nat}
    (h : n ∈ ext ∨ n ∈ heap.flatMap MNode.kids) : ∃ v c, heap[n]? = some ⟨some v, c + 1⟩ := by
  have hc := hi.counts n
  have hpos : 0 < countOf heap n := by
    rcases h with h | h <;> have := List.count_pos_iff.2 h <;> omega
  rcases hn : heap[n]? with _ | ⟨v, c⟩
  · simp [countOf, hn] at hpos
  · rw [countOf_some hn] at hpos
    have := (hi.alive n _ hn).2 hpos
    obtain ⟨v, rfl⟩ := Option.isSome_iff_exists.1 this
    cases c with
    | zero => simp at hpos
    | succ c => exact ⟨v, c, rfl⟩

/-- The value at `n` exists and is `v`. -/
def HasVal (heap : List (MNode R)) (n : Nat) (v : DVal R) : Prop := ∃ c, heap[n]? = some ⟨some v, c⟩

theorem Inv.congr {heap : List (MNode R)} {ext ext' : List Nat} (hi : Inv heap ext) (h : ∀ n, ext.count n = ext'.count n) :
    Inv heap ext' := ⟨fun n => by rw [hi.counts, h], hi.alive⟩

/-- Replacing a value that exists and its count. -/
theorem Inv.set {heap : List (MNode R)} {ext ext' : List Nat} (hi : Inv heap ext) {n : Nat} {nd nd' : MNode R}
    (hn : heap[n]? = some nd) (ha : nd'.val.isSome ↔ 0 < nd'.count)
    (hself : nd'.count + ext.count n + nd.kids.count n = nd.count + ext'.count n + nd'.kids.count n)
    (hother : ∀ m, m ≠ n → ext.count m + nd.kids.count m = ext'.count m + nd'.kids.count m) :
    Inv (heap.set n nd') ext' := by
  have hlt := (List.getElem?_eq_some_iff.1 hn).1
  constructor
  · intro m
    have h1 := count_flatMap_set MNode.kids hn nd' m
    have h2 := hi.counts m
    rw [countOf_set hlt]
    split
    · rename_i e
      subst e
      rw [countOf_some hn] at h2
      omega
    · rename_i e
      have := hother m e
      omega
  · intro m md hm
    rw [List.getElem?_set] at hm
    split at hm
    · simp at hm
      subst hm
      exact ha
    · exact hi.alive m md hm

theorem release_spec : ∀ (fuel : Nat) (heap : List (MNode R)) (ps hs : List Nat), Inv heap (hs ++ ps) → total heap ≤ fuel →
    ∃ heap', release fuel heap ps = .ok heap' ∧ Inv heap' hs ∧ heap'.length = heap.length ∧
      (∀ n v, HasVal heap' n v → HasVal heap n v) := by
  intro fuel
  induction fuel with
  | zero =>
    intro heap ps hs hi ht
    cases ps with
    | nil => exact ⟨heap, rfl, by simpa using hi, rfl, fun n v h => h⟩
    | cons n ps =>
      obtain ⟨v, c, hn⟩ := hi.live (n := n) (Or.inl (by simp))
      have := total_set hn ⟨none, 0⟩
      simp only at this
      omega
  | succ fuel ih =>
    intro heap ps hs hi ht
    cases ps with
    | nil => exact ⟨heap, rfl, by simpa using hi, rfl, fun n v h => h⟩
    | cons n ps =>
      obtain ⟨v, c, hn⟩ := hi.live (n := n) (Or.inl (by simp))
      have hlt := (List.getElem?_eq_some_iff.1 hn).1
      cases c with
      | zero =>
        have hi' : Inv (heap.set n ⟨none, 0⟩) (hs ++ (v.kids ++ ps)) := by
          refine hi.set hn (by simp) ?_ ?_
          · simp [List.count_append, MNode.kids]; omega
          · intro m hm
            simp [List.count_append, MNode.kids, Ne.symm hm]; omega
        have ht' := total_set hn ⟨none, 0⟩
        simp only at ht'
        obtain ⟨heap', h1, h2, h3, h4⟩ := ih _ _ _ hi' (by omega)
        refine ⟨heap', by simpa [release, hn] using h1, h2, by simpa using h3, ?_⟩
        intro m w hm
        obtain ⟨d', hd⟩ := h4 m w hm
        rw [List.getElem?_set] at hd
        split at hd
        · simp [hlt] at hd
        · exact ⟨d', hd⟩
      | succ c =>
        have hi' : Inv (heap.set n ⟨some v, c + 1⟩) (hs ++ ps) := by
          refine hi.set hn (by simp) ?_ ?_
          · simp [List.count_append, MNode.kids]; omega
          · intro m hm
            simp [List.count_append, MNode.kids, Ne.symm hm]
        have ht' := total_set hn ⟨some v, c + 1⟩
        simp only at ht'
        obtain ⟨heap', h1, h2, h3, h4⟩ := ih _ _ _ hi' (by omega)
        refine ⟨heap', by simpa [release, hn] using h1, h2, by simpa using h3, ?_⟩
        intro m w hm
        obtain ⟨d', hd⟩ := h4 m w hm
        rw [List.getElem?_set] at hd
        split at hd
        · rename_i e
          subst e
          simp only [hlt, if_true, Option.some.injEq, MNode.mk.injEq] at hd
          exact ⟨_, by rw [hn, hd.1]⟩
        · exact ⟨d', hd⟩

theorem acquire_spec {heap : List (MNode R)} {ext : List Nat} (hi : Inv heap ext) {n : Nat} {v : DVal R} {c : Nat}
    (hn : heap[n]? = some ⟨some v, c⟩) :
    acquire heap n = .ok (heap.set n ⟨some v, c + 1⟩) ∧ Inv (heap.set n ⟨some v, c + 1⟩) (n :: ext) := by
  refine ⟨by simp [acquire, hn], hi.set hn (by simp) ?_ ?_⟩
  · simp [MNode.kids]; omega
  · intro m hm
    simp [MNode.kids, Ne.symm hm]

/-- A new value takes over the pointers it is made of, and comes with one pointer to it. -/
theorem Inv.push {heap : List (MNode R)} {ext : List Nat} {v : DVal R} (hi : Inv heap (v.kids ++ ext)) :
    Inv (heap ++ [⟨some v, 1⟩]) (heap.length :: ext) := by
  constructor
  · intro m
    have := hi.counts m
    simp only [List.flatMap_append, List.flatMap_cons, List.flatMap_nil, List.append_nil, List.count_append, MNode.kids,
      List.count_cons] at this ⊢
    unfold countOf at this ⊢
    rcases Nat.lt_trichotomy m heap.length with h | h | h
    · rw [List.getElem?_append_left h]
      simp [Nat.ne_of_gt h]; omega
    · subst h
      simp at this ⊢
      omega
    · have e : heap[m]? = none := by simp; omega
      have e' : (heap ++ [⟨some v, 1⟩])[m]? = none := by simp; omega
      rw [e] at this
      rw [e']
      have e2 : heap.length ≠ m := by omega
      simp [e2] at this ⊢
      omega
  · intro m md hm
    rw [List.getElem?_append] at hm
    split at hm
    · exact hi.alive m md hm
    · have := List.mem_of_getElem? hm
      simp only [List.mem_singleton] at this
      subst this
      simp

end MState
end Verif
