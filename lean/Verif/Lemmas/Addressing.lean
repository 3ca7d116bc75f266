import Verif.Model.Ccoord
import Verif.Spec.Box
import Mathlib.Algebra.BigOperators.Group.List.Basic
import Mathlib.Algebra.Order.BigOperators.Group.List
import Mathlib.Tactic.Ring
import Mathlib.Tactic.Linarith
/-
Addressing of boxes of multi-indices by strides: the arithmetic core shared by pixels, fields,
copies and files.
-/
namespace Verif

/-- Successive division by the strides, slowest first. -/
def digits : List Int → Int → List Int
  | [], _ => []
  | s :: ss, i => Int.tdiv i s :: digits ss (i - Int.tdiv i s * s)

theorem Pos.cons {n : Int} {nb : List Int} : Pos (n :: nb) ↔ 0 < n ∧ Pos nb := by
  simp [Pos]

theorem InBox.length_eq {nb c : List Int} (h : InBox nb c) : c.length = nb.length := by
  induction nb generalizing c with
  | nil => cases c <;> simp_all [InBox]
  | cons n nb ih =>
    cases c with
    | nil => simp [InBox] at h
    | cons c cs => simp [InBox] at h; simp [ih h.2.2]

theorem SD.length_eq {nb s : List Int} (h : SD nb s) : s.length = nb.length := by
  induction nb generalizing s with
  | nil => cases s <;> simp_all [SD]
  | cons n nb ih =>
    cases s with
    | nil => simp [SD] at h
    | cons s ss => simp [SD] at h; simp [ih h.2.2]

theorem SD.pos {nb s : List Int} (h : SD nb s) : Pos nb := by
  induction nb generalizing s with
  | nil => simp [Pos]
  | cons n nb ih =>
    cases s with
    | nil => simp [SD] at h
    | cons s ss => simp [SD] at h; exact Pos.cons.2 ⟨h.1, ih h.2.2⟩

theorem SD.maxIdx_nonneg {nb s : List Int} (h : SD nb s) : 0 ≤ maxIdx nb s := by
  induction nb generalizing s with
  | nil => cases s <;> simp [maxIdx]
  | cons n nb ih =>
    cases s with
    | nil => simp [maxIdx]
    | cons s ss =>
      simp only [SD] at h
      simp only [maxIdx]
      have := ih h.2.2
      nlinarith [h.1, h.2.1]

theorem SD.stride_pos {nb s : List Int} (h : SD nb s) : ∀ x ∈ s, 0 < x := by
  induction nb generalizing s with
  | nil => cases s <;> simp_all [SD]
  | cons n nb ih =>
    cases s with
    | nil => simp
    | cons s ss =>
      simp only [SD] at h
      intro x hx
      rcases List.mem_cons.1 hx with rfl | hx
      · have := h.2.2.maxIdx_nonneg
        omega
      · exact ih h.2.2 x hx

/-- Addresses of the box lie between zero and `maxIdx`. -/
theorem SD.dot_bounds {nb s c : List Int} (h : SD nb s) (hc : InBox nb c) :
    0 ≤ dot s c ∧ dot s c ≤ maxIdx nb s := by
  induction nb generalizing s c with
  | nil => cases s <;> cases c <;> simp_all [SD, InBox, dot, maxIdx]
  | cons n nb ih =>
    cases s with
    | nil => simp [SD] at h
    | cons s ss =>
      cases c with
      | nil => simp [InBox] at hc
      | cons c cs =>
        have hs := h.stride_pos s (by simp)
        simp only [SD] at h
        simp only [InBox] at hc
        have := ih h.2.2 hc.2.2
        simp only [dot, maxIdx]
        constructor <;> nlinarith

theorem tdiv_of_digit {s c r : Int} (hs : 0 < s) (hr0 : 0 ≤ r) (hr : r < s) (hc : 0 ≤ c) :
    Int.tdiv (s * c + r) s = c := by
  have h0 : 0 ≤ s * c + r := by positivity
  rw [Int.tdiv_eq_ediv_of_nonneg h0]
  rw [Int.add_comm, Int.add_mul_ediv_left _ _ (by omega), Int.ediv_eq_zero_of_lt hr0 hr]
  simp

/-- Decoding inverts encoding. -/
theorem SD.digits_dot {nb s c : List Int} (h : SD nb s) (hc : InBox nb c) :
    digits s (dot s c) = c := by
  induction nb generalizing s c with
  | nil => cases s <;> cases c <;> simp_all [SD, InBox, digits]
  | cons n nb ih =>
    cases s with
    | nil => simp [SD] at h
    | cons s ss =>
      cases c with
      | nil => simp [InBox] at hc
      | cons c cs =>
        have hs := h.stride_pos s (by simp)
        simp only [SD] at h
        simp only [InBox] at hc
        have hb := h.2.2.dot_bounds hc.2.2
        have hd : Int.tdiv (s * c + dot ss cs) s = c :=
          tdiv_of_digit hs hb.1 (by omega) hc.1
        simp only [dot, digits, hd]
        have : s * c + dot ss cs - c * s = dot ss cs := by ring
        rw [this, ih h.2.2 hc.2.2]

theorem SD.dot_inj {nb s c c' : List Int} (h : SD nb s) (hc : InBox nb c) (hc' : InBox nb c')
    (he : dot s c = dot s c') : c = c' := by
  rw [← h.digits_dot hc, he, h.digits_dot hc']

theorem Dense.sd {nb s : List Int} (h : Dense nb s) : SD nb s := by
  induction nb generalizing s with
  | nil => cases s <;> simp_all [SD, Dense]
  | cons n nb ih =>
    cases s with
    | nil => simp [Dense] at h
    | cons s ss => simp only [Dense] at h; exact ⟨h.1, by omega, ih h.2.2⟩

theorem Dense.size {nb s : List Int} (h : Dense nb s) : maxIdx nb s + 1 = nb.prod := by
  induction nb generalizing s with
  | nil => cases s <;> simp_all [Dense, maxIdx]
  | cons n nb ih =>
    cases s with
    | nil => simp [Dense] at h
    | cons s ss =>
      simp only [Dense] at h
      have := ih h.2.2
      simp only [maxIdx, List.prod_cons, ← this]
      rw [h.2.1]; ring

/-- With dense strides every number below the size is an address, and decoding finds it. -/
theorem Dense.dot_digits {nb s : List Int} (h : Dense nb s) {i : Int} (h0 : 0 ≤ i)
    (hi : i < nb.prod) : InBox nb (digits s i) ∧ dot s (digits s i) = i := by
  induction nb generalizing s i with
  | nil =>
    cases s with
    | nil => simp at hi; simp [digits, InBox, dot]; omega
    | cons => simp [Dense] at h
  | cons n nb ih =>
    cases s with
    | nil => simp [Dense] at h
    | cons s ss =>
      have hs : 0 < s := h.sd.stride_pos s (by simp)
      simp only [Dense] at h
      have hsz := h.2.2.size
      have hsp : s = nb.prod := by omega
      have hq0 : 0 ≤ Int.tdiv i s := Int.tdiv_nonneg h0 hs.le
      have hdm := Int.mul_tdiv_add_tmod i s
      have hr0 : 0 ≤ Int.tmod i s := Int.tmod_nonneg _ h0
      have hr : Int.tmod i s < s := Int.tmod_lt_of_pos _ hs
      have hrest : i - Int.tdiv i s * s = Int.tmod i s := by linarith
      have := ih h.2.2 hr0 (by omega)
      simp only [digits, InBox, dot, hrest]
      refine ⟨⟨hq0, ?_, this.1⟩, ?_⟩
      · by_contra hge
        rw [List.prod_cons, ← hsp] at hi
        nlinarith
      · rw [this.2]; linarith

/-! ### Picking axes in another order -/

theorem pick_length (ax : List Nat) (l : List Int) : (pick ax l).length = ax.length := by
  simp [pick]

theorem pick_range (l : List Int) : pick (List.range l.length) l = l := by
  apply List.ext_getElem
  · simp [pick]
  · intro i h1 h2
    simp [pick, h2]

theorem dot_eq_sum (s c : List Int) (h : c.length = s.length) :
    dot s c = ((List.range s.length).map (fun a => s[a]?.getD 0 * c[a]?.getD 0)).sum := by
  induction s generalizing c with
  | nil => simp [dot]
  | cons s ss ih =>
    cases c with
    | nil => simp at h
    | cons c cs =>
      have hl : cs.length = ss.length := by simpa using h
      simp [dot, List.range_succ_eq_map, ih cs hl, Function.comp_def]

theorem dot_pick_eq_sum (ax : List Nat) (s c : List Int) :
    dot (pick ax s) (pick ax c) = (ax.map (fun a => s[a]?.getD 0 * c[a]?.getD 0)).sum := by
  induction ax with
  | nil => simp [pick, dot]
  | cons a ax ih =>
    simp only [pick, List.map_cons, List.sum_cons] at ih ⊢
    simp [dot, ih]

theorem dot_pick {ax : List Nat} {s c : List Int} (hp : ax.Perm (List.range s.length))
    (h : c.length = s.length) : dot (pick ax s) (pick ax c) = dot s c := by
  rw [dot_pick_eq_sum, dot_eq_sum s c h]
  exact (hp.map _).sum_eq

theorem inBox_iff_forall {nb c : List Int} :
    InBox nb c ↔ c.length = nb.length ∧
      ∀ a < nb.length, 0 ≤ c[a]?.getD 0 ∧ c[a]?.getD 0 < nb[a]?.getD 0 := by
  induction nb generalizing c with
  | nil => cases c <;> simp [InBox]
  | cons n nb ih =>
    cases c with
    | nil => simp [InBox]
    | cons c cs =>
      simp only [InBox, ih, List.length_cons]
      constructor
      · rintro ⟨h1, h2, h3, h4⟩
        refine ⟨by omega, ?_⟩
        intro a ha
        cases a with
        | zero => simp [h1, h2]
        | succ a => simpa using h4 a (by omega)
      · rintro ⟨h1, h2⟩
        refine ⟨by simpa using (h2 0 (by omega)).1, by simpa using (h2 0 (by omega)).2, by omega, ?_⟩
        intro a ha
        simpa using h2 (a + 1) (by omega)

theorem inBox_pick_iff_forall {ax : List Nat} {nb c : List Int} :
    InBox (pick ax nb) (pick ax c) ↔
      ∀ a ∈ ax, 0 ≤ c[a]?.getD 0 ∧ c[a]?.getD 0 < nb[a]?.getD 0 := by
  induction ax with
  | nil => simp [pick, InBox]
  | cons a ax ih =>
    simp only [pick, List.map_cons] at ih ⊢
    simp [InBox, ih, and_assoc]

theorem inBox_pick {ax : List Nat} {nb c : List Int} (hp : ax.Perm (List.range nb.length))
    (hl : c.length = nb.length) : InBox (pick ax nb) (pick ax c) ↔ InBox nb c := by
  rw [inBox_pick_iff_forall, inBox_iff_forall]
  simp only [hl, true_and]
  constructor
  · intro h a ha; exact h a (hp.mem_iff.2 (List.mem_range.2 ha))
  · intro h a ha; exact h a (List.mem_range.1 (hp.mem_iff.1 ha))

theorem pick_prod {ax : List Nat} {nb : List Int} (hp : ax.Perm (List.range nb.length)) :
    (pick ax nb).prod = nb.prod := by
  have : (pick ax nb).Perm (pick (List.range nb.length) nb) := hp.map _
  rw [this.prod_eq, pick_range]

end Verif
