import Verif.Spec.Wrapped
import Verif.Props.RawMemory
/-
Lemmas about the loops over existing memory.
-/
namespace Verif.Props
open Verif Verif.Ccoord Verif.RawMemory Verif.Layout Verif.Layout.FieldLayout Verif.Numpy Verif.WrappedMemory

variable {α : Type}

theorem write_self (m : Mem α) (a : Int) (x : α) : m.write a x a = some x := if_pos rfl

theorem write_other (m : Mem α) {a b : Int} (x : α) (h : b ≠ a) : m.write a x b = m b := if_neg h

theorem fillLoop_ok (base : Int) (v : α) (n : Nat) (m : Mem α)
    (h : ∀ k : Int, 0 ≤ k → k < n → (m (base + k)).isSome) :
    ∃ m', fillLoop base v n m = .ok m' ∧ (∀ k : Int, 0 ≤ k → k < n → m' (base + k) = some v) ∧
      ∀ a, a < base ∨ base + n ≤ a → m' a = m a := by
  induction n with
  | zero => exact ⟨m, rfl, fun k h0 h1 => by omega, fun _ _ => rfl⟩
  | succ n ih =>
    obtain ⟨m1, e1, e2, e3⟩ := ih fun k h0 h1 => h k h0 (by omega)
    obtain ⟨x, hx⟩ := Option.isSome_iff_exists.1 (h n (by omega) (by omega))
    have hx1 : m1 (base + n) = some x := by rw [e3 _ (Or.inr (le_refl _)), hx]
    refine ⟨m1.write (base + n) v, ?_, ?_, ?_⟩
    · rw [fillLoop, e1, Res.ok_bind]
      simp only [hx1, Res.pure_eq]
    · intro k h0 h1
      by_cases hk : k = n
      · subst hk; exact write_self _ _ _
      · rw [write_other _ _ (by omega)]; exact e2 k h0 (by omega)
    · intro a ha
      rw [write_other _ _ (by omega)]
      exact e3 a (by omega)

theorem fillLoop_ub (base : Int) (v : α) (n : Nat) (m : Mem α) {k : Int} (h0 : 0 ≤ k) (h1 : k < n) (hk : m (base + k) = none) :
    fillLoop base v n m = .ub := by
  induction n generalizing k with
  | zero => omega
  | succ n ih =>
    by_cases hall : ∀ j : Int, 0 ≤ j → j < n → (m (base + j)).isSome
    · obtain ⟨m1, e1, -, e3⟩ := fillLoop_ok base v n m hall
      have hn : k = n := by
        by_contra hne
        have := hall k h0 (by omega)
        simp [hk] at this
      subst hn
      rw [fillLoop, e1, Res.ok_bind]
      simp only [e3 _ (Or.inr (le_refl _)), hk]
    · push Not at hall
      obtain ⟨j, j0, j1, hj⟩ := hall
      rw [fillLoop, ih j0 j1 (by simpa using hj), Res.ub_bind]

theorem vecLoop_ok (op : α → α → α) (db sb : Int) (n : Nat) (m : Mem α) (x y : Int → α)
    (hx : ∀ k : Int, 0 ≤ k → k < n → m (db + k) = some (x k)) (hy : ∀ k : Int, 0 ≤ k → k < n → m (sb + k) = some (y k))
    (hd : db = sb ∨ ∀ j k : Int, 0 ≤ j → j < n → 0 ≤ k → k < n → db + j ≠ sb + k) :
    ∃ m', vecLoop op db sb n m = .ok m' ∧ (∀ k : Int, 0 ≤ k → k < n → m' (db + k) = some (op (x k) (y k))) ∧
      ∀ a, a < db ∨ db + n ≤ a → m' a = m a := by
  induction n with
  | zero => exact ⟨m, rfl, fun k h0 h1 => by omega, fun _ _ => rfl⟩
  | succ n ih =>
    obtain ⟨m1, e1, e2, e3⟩ := ih (fun k h0 h1 => hx k h0 (by omega)) (fun k h0 h1 => hy k h0 (by omega))
      (hd.imp id fun h j k a b c d => h j k a (by omega) c (by omega))
    have hx1 : m1 (db + n) = some (x n) := by rw [e3 _ (Or.inr (le_refl _))]; exact hx n (by omega) (by omega)
    have hy1 : m1 (sb + n) = some (y n) := by
      rw [e3]
      · exact hy n (by omega) (by omega)
      · rcases hd with rfl | hd
        · exact Or.inr (le_refl _)
        · by_contra hc
          push Not at hc
          exact hd (sb + n - db) n (by omega) (by omega) (by omega) (by omega) (by omega)
    refine ⟨m1.write (db + n) (op (x n) (y n)), ?_, ?_, ?_⟩
    · rw [vecLoop, e1, Res.ok_bind, vecCell]
      simp only [hx1, hy1]
    · intro k h0 h1
      by_cases hk : k = n
      · subst hk; exact write_self _ _ _
      · rw [write_other _ _ (by omega)]; exact e2 k h0 (by omega)
    · intro a ha
      rw [write_other _ _ (by omega)]
      exact e3 a (by omega)

theorem vecLoop_defined (op : α → α → α) (db sb : Int) (n : Nat) (m : Mem α)
    (h : ∀ k : Int, 0 ≤ k → k < n → (m (db + k)).isSome ∧ (m (sb + k)).isSome) :
    ∃ m', vecLoop op db sb n m = .ok m' ∧ ∀ a, (m' a).isSome = (m a).isSome := by
  induction n with
  | zero => exact ⟨m, rfl, fun _ => rfl⟩
  | succ n ih =>
    obtain ⟨m1, e1, e2⟩ := ih fun k h0 h1 => h k h0 (by omega)
    obtain ⟨hx, hy⟩ := h n (by omega) (by omega)
    rw [← e2] at hx hy
    obtain ⟨x, hx⟩ := Option.isSome_iff_exists.1 hx
    obtain ⟨y, hy⟩ := Option.isSome_iff_exists.1 hy
    refine ⟨m1.write (db + n) (op x y), ?_, ?_⟩
    · rw [vecLoop, e1, Res.ok_bind, vecCell]
      simp only [hx, hy]
    · intro a
      by_cases ha : a = db + n
      · subst ha; rw [write_self, ← e2, hx]; rfl
      · rw [write_other _ _ ha, e2]

theorem vecLoop_ub (op : α → α → α) (db sb : Int) (n : Nat) (m : Mem α) {k : Int} (h0 : 0 ≤ k) (h1 : k < n)
    (hk : ¬ ((m (db + k)).isSome ∧ (m (sb + k)).isSome)) : vecLoop op db sb n m = .ub := by
  induction n generalizing k with
  | zero => omega
  | succ n ih =>
    by_cases hall : ∀ j : Int, 0 ≤ j → j < n → (m (db + j)).isSome ∧ (m (sb + j)).isSome
    · obtain ⟨m1, e1, e2⟩ := vecLoop_defined op db sb n m hall
      have hn : k = n := by
        by_contra hne
        exact hk (hall k h0 (by omega))
      subst hn
      rw [vecLoop, e1, Res.ok_bind, vecCell]
      rw [← e2, ← e2] at hk
      cases hx : m1 (db + n) <;> cases hy : m1 (sb + n) <;> simp_all
    · push Not at hall
      obtain ⟨j, j0, j1, hj⟩ := hall
      rw [vecLoop, ih j0 j1 (fun hb => hj hb.1 hb.2), Res.ub_bind]

/-- Copying within one memory, if no cell that is read is written. -/
theorem foldRes_copyIn {is os : List Int} {bi bo : Int} {inp : Mem α} (l : List (List Int)) (m : Mem α)
    (hin : ∀ i ∈ l, m (bi + dot is i) = inp (dot is i)) (hd : ∀ i ∈ l, ∀ j ∈ l, bi + dot is i ≠ bo + dot os j) {out' : Mem α}
    (h : foldRes (copyBody is os inp) l (fun a => m (bo + a)) = .ok out') :
    foldRes (copyBodyIn is os bi bo) l m = .ok (fun a => out' (a - bo)) := by
  induction l generalizing m with
  | nil =>
    cases h
    simp [foldRes]
  | cons i l ih =>
    simp only [foldRes, copyBody, linearIndex_eq_dot] at h
    simp only [foldRes, copyBodyIn, linearIndex_eq_dot]
    rw [hin i (by simp)]
    cases hx : inp (dot is i) with
    | none => simp [hx] at h
    | some x =>
      cases hy : m (bo + dot os i) with
      | none => simp [hx, hy] at h
      | some y =>
        simp only [hx, hy, Res.ok_bind] at h ⊢
        refine ih (m.write (bo + dot os i) x) ?_ (fun i' hi j hj => hd i' (by simp [hi]) j (by simp [hj])) ?_
        · intro i' hi'
          rw [write_other _ _ (hd i' (by simp [hi']) i (by simp))]
          exact hin i' (by simp [hi'])
        · rw [← h]
          congr 1
          funext a
          simp [Mem.write]

/-- `strided_copy` within one memory. -/
theorem stridedCopyIn_ok {srt : SortFn} (hsrt : SortSpec srt) {shape is os : List Int} {bi bo : Int} {m : Mem α}
    (hp : Pos shape) (hne : shape ≠ []) (hi : is.length = shape.length) (ho : os.length = shape.length)
    (hin : ∀ c, InBox shape c → (m (bi + dot is c)).isSome) (hout : ∀ c, InBox shape c → (m (bo + dot os c)).isSome)
    (hd : ∀ c c', InBox shape c → InBox shape c' → bi + dot is c ≠ bo + dot os c')
    (hinj : ∀ c c', InBox shape c → InBox shape c' → dot os c = dot os c' → c = c') :
    ∃ m', stridedCopyIn srt shape is os bi bo m = .ok m' ∧
      (∀ c, InBox shape c → m' (bo + dot os c) = m (bi + dot is c)) ∧
      ∀ a, (∀ c, InBox shape c → bo + dot os c ≠ a) → m' a = m a := by
  obtain ⟨out', h1, h2, -, h3⟩ := C08_strided_copy hsrt shape is os (fun a => m (bi + a)) (fun a => m (bo + a)) hp hne hi ho hin hout
  have hperm := DynamicPixels.axes_perm hsrt shape os shape.length
  have hm := fun c => mem_boxList (idx := c) hp hperm
  simp only [stridedCopy, hi, ho, ne_eq, not_true_eq_false, if_false, computeAxesOrder] at h1
  rw [if_neg (by omega), Res.ok_bind, visit_eq hp hperm hne] at h1
  have := foldRes_copyIn (bi := bi) (bo := bo) (boxList shape _) m (fun _ _ => rfl)
    (fun i hi j hj => hd i j ((hm i).1 hi) ((hm j).1 hj)) h1
  refine ⟨fun a => out' (a - bo), ?_, ?_, ?_⟩
  · rw [← this]
    simp only [stridedCopyIn, hi, ho, ne_eq, not_true_eq_false, if_false, computeAxesOrder]
    rw [if_neg (by omega), Res.ok_bind, visit_eq hp hperm hne]
  · intro c hc
    have := h2 hinj c hc
    simpa using this
  · intro a ha
    show out' (a - bo) = m a
    rw [h3 (a - bo) (fun c hc he => ha c hc (by omega))]
    simp

end Verif.Props
