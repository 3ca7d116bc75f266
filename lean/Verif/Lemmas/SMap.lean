import Verif.Model.SMap
import Mathlib.Order.Basic
/-! Lemmas on sorted association lists. -/
namespace Verif.SMap
variable {κ β γ : Type} [LinearOrder κ]

@[simp] theorem find_nil (k : κ) : find ([] : SMap κ β) k = none := rfl

theorem find_cons (k' : κ) (v : β) (m : SMap κ β) (k : κ) :
    find ((k', v) :: m) k = if k' = k then some v else find m k := rfl

theorem find_insert_self (m : SMap κ β) (k : κ) (v : β) : (m.insert k v).find k = some v := by
  induction m with
  | nil => simp [insert, find]
  | cons e m ih =>
    obtain ⟨k', v'⟩ := e
    simp only [insert]
    split
    · simp [find]
    · split
      · simp [find]
      · rename_i h
        simp [find, Ne.symm h, ih]

theorem find_insert_ne (m : SMap κ β) {k k' : κ} (v : β) (h : k' ≠ k) :
    (m.insert k v).find k' = m.find k' := by
  induction m with
  | nil => simp [insert, find, Ne.symm h]
  | cons e m ih =>
    obtain ⟨k1, v1⟩ := e
    simp only [insert]
    split
    · simp [find, Ne.symm h]
    · split
      · rename_i h1; subst h1; simp [find, Ne.symm h]
      · simp [find, ih]

theorem find_insert (m : SMap κ β) (k k' : κ) (v : β) :
    (m.insert k v).find k' = if k' = k then some v else m.find k' := by
  by_cases h : k' = k
  · subst h; simp [find_insert_self]
  · simp [h, find_insert_ne m v h]

theorem mem_of_find {m : SMap κ β} {k : κ} {v : β} (h : m.find k = some v) : (k, v) ∈ m := by
  induction m with
  | nil => simp at h
  | cons e m ih =>
    obtain ⟨k', v'⟩ := e
    rw [find_cons] at h
    split at h
    · rename_i hk; subst hk; cases h; simp
    · exact List.mem_cons_of_mem _ (ih h)

theorem find_of_mem {m : SMap κ β} (hs : m.Sorted) {k : κ} {v : β} (h : (k, v) ∈ m) :
    m.find k = some v := by
  induction m with
  | nil => simp at h
  | cons e m ih =>
    obtain ⟨k', v'⟩ := e
    have hs' := List.pairwise_cons.1 hs
    rw [find_cons]
    rcases List.mem_cons.1 h with h | h
    · cases h; simp
    · have := hs'.1 _ h
      rw [if_neg (ne_of_lt this), ih hs'.2 h]

theorem find_eq_none {m : SMap κ β} {k : κ} (h : ∀ e ∈ m, e.1 ≠ k) : m.find k = none := by
  induction m with
  | nil => rfl
  | cons e m ih =>
    obtain ⟨k', v'⟩ := e
    rw [find_cons, if_neg (h (k', v') (by simp)), ih (fun e he => h e (by simp [he]))]

theorem find_isSome_iff {m : SMap κ β} {k : κ} : (m.find k).isSome ↔ k ∈ m.keys := by
  induction m with
  | nil => simp [keys]
  | cons e m ih =>
    obtain ⟨k', v'⟩ := e
    rw [find_cons]
    by_cases h : k' = k
    · simp [h, keys]
    · rw [if_neg h, ih]; simp [keys, Ne.symm h]

theorem mem_insert {m : SMap κ β} {k : κ} {v : β} {e : κ × β} (h : e ∈ m.insert k v) :
    e = (k, v) ∨ e ∈ m := by
  induction m with
  | nil => simpa [insert] using h
  | cons e' m ih =>
    obtain ⟨k', v'⟩ := e'
    simp only [insert] at h
    split at h
    · rcases List.mem_cons.1 h with h | h
      · exact Or.inl h
      · exact Or.inr h
    · split at h
      · rcases List.mem_cons.1 h with h | h
        · exact Or.inl h
        · exact Or.inr (by simp [h])
      · rcases List.mem_cons.1 h with h | h
        · exact Or.inr (by simp [h])
        · rcases ih h with h | h
          · exact Or.inl h
          · exact Or.inr (by simp [h])

theorem sorted_insert {m : SMap κ β} (hs : m.Sorted) (k : κ) (v : β) : (m.insert k v).Sorted := by
  induction m with
  | nil => simp [insert, Sorted]
  | cons e m ih =>
    obtain ⟨k', v'⟩ := e
    have hs' := List.pairwise_cons.1 hs
    simp only [insert]
    split
    · rename_i h
      refine List.pairwise_cons.2 ⟨?_, hs⟩
      intro e he
      rcases List.mem_cons.1 he with rfl | he
      · exact h
      · exact lt_trans h (hs'.1 e he)
    · split
      · rename_i h1; subst h1
        exact List.pairwise_cons.2 ⟨hs'.1, hs'.2⟩
      · rename_i h1 h2
        refine List.pairwise_cons.2 ⟨?_, ih hs'.2⟩
        intro e he
        rcases mem_insert he with rfl | he
        · exact lt_of_le_of_ne (not_lt.1 h1) (Ne.symm h2)
        · exact hs'.1 e he

theorem mem_insert_iff {m : SMap κ β} (hs : m.Sorted) {k : κ} {v : β} {e : κ × β} :
    e ∈ m.insert k v ↔ e = (k, v) ∨ (e ∈ m ∧ e.1 ≠ k) := by
  obtain ⟨k1, v1⟩ := e
  have h1 : (k1, v1) ∈ m.insert k v ↔ (m.insert k v).find k1 = some v1 :=
    ⟨find_of_mem (sorted_insert hs k v), mem_of_find⟩
  rw [h1, find_insert]
  by_cases h : k1 = k
  · simp [h, eq_comm]
  · simp only [h, if_false, Prod.mk.injEq, false_and, ne_eq, not_false_eq_true, and_true, false_or]
    exact ⟨mem_of_find, find_of_mem hs⟩

theorem insert_mem {m : SMap κ β} (hs : m.Sorted) {k : κ} {v : β} (h : m.find k = some v) :
    m.insert k v = m := by
  induction m with
  | nil => simp at h
  | cons e m ih =>
    obtain ⟨k', v'⟩ := e
    have hs' := List.pairwise_cons.1 hs
    rw [find_cons] at h
    simp only [insert]
    by_cases hk : k' = k
    · subst hk; simp at h; subst h; simp
    · rw [if_neg hk] at h
      have := hs'.1 _ (mem_of_find h)
      rw [if_neg (not_lt.2 (le_of_lt this)), if_neg (Ne.symm hk), ih hs'.2 h]

theorem mem_erase {m : SMap κ β} {k : κ} {e : κ × β} (h : e ∈ m.erase k) : e ∈ m := by
  induction m with
  | nil => simp [erase] at h
  | cons e' m ih =>
    obtain ⟨k', v'⟩ := e'
    simp only [erase] at h
    split at h
    · simp [h]
    · rcases List.mem_cons.1 h with h | h
      · simp [h]
      · simp [ih h]

theorem sorted_erase {m : SMap κ β} (hs : m.Sorted) (k : κ) : (m.erase k).Sorted := by
  induction m with
  | nil => simp [erase, Sorted]
  | cons e m ih =>
    obtain ⟨k', v'⟩ := e
    have hs' := List.pairwise_cons.1 hs
    simp only [erase]
    split
    · exact hs'.2
    · exact List.pairwise_cons.2 ⟨fun e he => hs'.1 e (mem_erase he), ih hs'.2⟩

theorem find_erase {m : SMap κ β} (hs : m.Sorted) (k k' : κ) :
    (m.erase k).find k' = if k' = k then none else m.find k' := by
  induction m with
  | nil => simp [erase]
  | cons e m ih =>
    obtain ⟨k1, v1⟩ := e
    have hs' := List.pairwise_cons.1 hs
    simp only [erase]
    by_cases h1 : k1 = k
    · subst h1
      rw [if_pos rfl]
      by_cases h2 : k' = k1
      · subst h2
        rw [if_pos rfl]
        exact find_eq_none (fun e he => ne_of_gt (hs'.1 e he))
      · rw [if_neg h2, find_cons, if_neg (Ne.symm h2)]
    · rw [if_neg h1, find_cons, ih hs'.2, find_cons]
      by_cases h2 : k1 = k'
      · subst h2; simp [h1]
      · simp [h2]

theorem erase_insert {m : SMap κ β} (hs : m.Sorted) {k : κ} (v : β) (h : m.find k = none) :
    (m.insert k v).erase k = m := by
  induction m with
  | nil => simp [insert, erase]
  | cons e m ih =>
    obtain ⟨k', v'⟩ := e
    have hs' := List.pairwise_cons.1 hs
    rw [find_cons] at h
    split at h
    · simp at h
    · rename_i hk
      simp only [insert]
      split
      · simp [erase]
      · rw [if_neg (Ne.symm hk)]
        simp [erase, hk, ih hs'.2 h]

theorem sorted_nodup {m : SMap κ β} (hs : m.Sorted) : m.keys.Nodup := by
  unfold keys
  rw [List.nodup_iff_pairwise_ne, List.pairwise_map]
  exact hs.imp (fun h => ne_of_lt h)

theorem find_map (m : SMap κ β) (f : β → γ) (k : κ) :
    find (m.map (fun e => (e.1, f e.2)) : SMap κ γ) k = (m.find k).map f := by
  induction m with
  | nil => rfl
  | cons e m ih =>
    obtain ⟨k', v'⟩ := e
    simp only [List.map_cons, find_cons, ih]
    split <;> rfl

theorem sorted_map {m : SMap κ β} (hs : m.Sorted) (f : β → γ) :
    Sorted (m.map (fun e => (e.1, f e.2)) : SMap κ γ) := by
  unfold Sorted at *
  rw [List.pairwise_map]
  exact hs.imp (fun h => h)

theorem keys_map (m : SMap κ β) (f : β → γ) :
    keys (m.map (fun e => (e.1, f e.2)) : SMap κ γ) = m.keys := by
  simp [keys, List.map_map, Function.comp_def]

/-- Two sorted maps with the same look-ups are equal. -/
theorem ext_find {m m' : SMap κ β} (hs : m.Sorted) (hs' : m'.Sorted)
    (h : ∀ k, m.find k = m'.find k) : m = m' := by
  have hmem : ∀ e, e ∈ m ↔ e ∈ m' := by
    rintro ⟨k, v⟩
    constructor
    · intro he; exact mem_of_find ((h k) ▸ find_of_mem hs he)
    · intro he; exact mem_of_find ((h k).symm ▸ find_of_mem hs' he)
  induction m generalizing m' with
  | nil =>
    cases m' with
    | nil => rfl
    | cons e m' => exact absurd ((hmem e).2 (by simp)) (by simp)
  | cons e m ih =>
    cases m' with
    | nil => exact absurd ((hmem e).1 (by simp)) (by simp)
    | cons e' m' =>
      have h1 := List.pairwise_cons.1 hs
      have h2 := List.pairwise_cons.1 hs'
      have hee : e = e' := by
        rcases List.mem_cons.1 ((hmem e).1 (by simp)) with h3 | h3
        · exact h3
        · rcases List.mem_cons.1 ((hmem e').2 (by simp)) with h4 | h4
          · exact h4.symm
          · exact absurd (lt_trans (h1.1 _ h4) (h2.1 _ h3)) (lt_irrefl _)
      subst hee
      congr 1
      have hm : ∀ x, x ∈ m ↔ x ∈ m' := by
        intro x
        constructor
        · intro hx
          rcases List.mem_cons.1 ((hmem x).1 (by simp [hx])) with h3 | h3
          · subst h3; exact absurd (h1.1 _ hx) (lt_irrefl _)
          · exact h3
        · intro hx
          rcases List.mem_cons.1 ((hmem x).2 (by simp [hx])) with h3 | h3
          · subst h3; exact absurd (h2.1 _ hx) (lt_irrefl _)
          · exact h3
      apply ih h1.2 h2.2 _ hm
      intro k
      cases hk : find m k with
      | none =>
        cases hk' : find m' k with
        | none => rfl
        | some v => exact absurd (find_of_mem h1.2 ((hm _).2 (mem_of_find hk'))) (by simp [hk])
      | some v => exact (find_of_mem h2.2 ((hm _).1 (mem_of_find hk))).symm

end Verif.SMap
