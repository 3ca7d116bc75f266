import Verif.Lemmas.Addressing
/-
Helper lemmas on the column-major index and coordinate functions.
-/
namespace Verif.Ccoord

theorem getSize_eq_prod (nb : List Int) : getSize nb = nb.prod := by
  induction nb with
  | nil => simp [getSize]
  | cons n nb ih => simp [getSize, ih]

theorem nbPixels_eq_prod (nb : List Int) : nbPixels nb = nb.prod := by
  induction nb with
  | nil => simp [nbPixels]
  | cons n nb ih => simp [nbPixels, ih]

theorem prod_pos_of_pos {nb : List Int} (h : Pos nb) : 0 < nb.prod := by
  induction nb with
  | nil => simp
  | cons n nb ih =>
    have := Pos.cons.1 h
    have := ih this.2
    simp only [List.prod_cons]; nlinarith [this]

theorem getIndexAux_eq (r f : Int) {nb loc cc : List Int} (hl : loc.length = nb.length)
    (hc : cc.length = nb.length) :
    getIndexAux r f nb loc cc = r + f * colMajorNumber nb loc cc := by
  induction nb generalizing r f loc cc with
  | nil => simp_all [getIndexAux, colMajorNumber]
  | cons n nb ih =>
    cases loc with
    | nil => simp at hl
    | cons l loc =>
      cases cc with
      | nil => simp at hc
      | cons c cc =>
        simp only [List.length_cons, Nat.add_right_cancel_iff] at hl hc
        simp only [getIndexAux, colMajorNumber]
        rw [ih _ _ hl hc]
        cases nb with
        | nil =>
          have h1 : loc = [] := List.length_eq_zero_iff.1 hl
          have h2 : cc = [] := List.length_eq_zero_iff.1 hc
          subst h1 h2
          simp [colMajorNumber]; ring
        | cons m nb => simp; ring

theorem colMajorNumber_bounds {nb loc cc : List Int} (h : InBoxAt nb loc cc) :
    0 ≤ colMajorNumber nb loc cc ∧ colMajorNumber nb loc cc < nb.prod := by
  induction nb generalizing loc cc with
  | nil => cases loc <;> cases cc <;> simp_all [InBoxAt, colMajorNumber]
  | cons n nb ih =>
    cases loc with
    | nil => simp [InBoxAt] at h
    | cons l loc =>
      cases cc with
      | nil => simp [InBoxAt] at h
      | cons c cc =>
        simp only [InBoxAt] at h
        have := ih h.2.2
        simp only [colMajorNumber, List.prod_cons]
        constructor <;> nlinarith

/-- The mixed-radix digits of a number, fastest axis first. -/
def digitsFast : List Int → List Int → Int → List Int
  | n :: nb, l :: loc, i => (i % n + l) :: digitsFast nb loc (i / n)
  | _, _, _ => []

theorem getCcoordAux_eq {nb loc : List Int} (hl : loc.length = nb.length) (hp : Pos nb)
    {index f : Int} (hf : 0 < f) (hi : 0 ≤ index) :
    getCcoordAux index f nb loc = .ok (digitsFast nb loc (index / f)) := by
  induction nb generalizing f loc with
  | nil =>
    have h1 : loc = [] := List.length_eq_zero_iff.1 hl
    subst h1
    simp [getCcoordAux, digitsFast]
  | cons n nb ih =>
    cases loc with
    | nil => simp at hl
    | cons l loc =>
      have hl' : loc.length = nb.length := by simpa using hl
      have hn := (Pos.cons.1 hp).1
      have hp' := (Pos.cons.1 hp).2
      have hz : ¬ (f = 0 ∨ n = 0) := by omega
      have hd : Int.tdiv index f = index / f := Int.tdiv_eq_ediv_of_nonneg hi
      have hd0 : 0 ≤ index / f := Int.ediv_nonneg hi hf.le
      have hm : Int.tmod (index / f) n = index / f % n := Int.tmod_eq_emod_of_nonneg hd0
      simp only [getCcoordAux, hz, if_false, digitsFast, hd, hm]
      cases nb with
      | nil =>
        have h1 : loc = [] := List.length_eq_zero_iff.1 hl'
        subst h1
        simp [getCcoordAux, digitsFast]
      | cons m nb =>
        have := ih hl' hp' (f := f * n) (by positivity)
        simp only [List.isEmpty_cons, Bool.false_eq_true, if_false, this, Res.ok_bind, Res.pure_eq]
        rw [Int.ediv_ediv_of_nonneg hf.le]

theorem digitsFast_inBox {nb loc : List Int} (hl : loc.length = nb.length) (hp : Pos nb) (i : Int) :
    InBoxAt nb loc (digitsFast nb loc i) := by
  induction nb generalizing loc i with
  | nil =>
    have h1 : loc = [] := List.length_eq_zero_iff.1 hl
    subst h1; simp [digitsFast, InBoxAt]
  | cons n nb ih =>
    cases loc with
    | nil => simp at hl
    | cons l loc =>
      have hl' : loc.length = nb.length := by simpa using hl
      have hn := (Pos.cons.1 hp).1
      have := Int.emod_nonneg i (show n ≠ 0 by omega)
      have := Int.emod_lt_of_pos i hn
      exact ⟨by omega, by omega, ih hl' (Pos.cons.1 hp).2 _⟩

theorem colMajorNumber_digitsFast {nb loc : List Int} (hl : loc.length = nb.length) (hp : Pos nb)
    {i : Int} (h0 : 0 ≤ i) (hi : i < nb.prod) :
    colMajorNumber nb loc (digitsFast nb loc i) = i := by
  induction nb generalizing loc i with
  | nil => simp at hi; simp [colMajorNumber]; omega
  | cons n nb ih =>
    cases loc with
    | nil => simp at hl
    | cons l loc =>
      have hl' : loc.length = nb.length := by simpa using hl
      have hn := (Pos.cons.1 hp).1
      simp only [List.prod_cons] at hi
      have h1 : i / n < nb.prod := Int.ediv_lt_of_lt_mul hn (by linarith [mul_comm n nb.prod])
      have := ih hl' (Pos.cons.1 hp).2 (Int.ediv_nonneg h0 hn.le) h1
      simp only [digitsFast, colMajorNumber, this]
      have := Int.emod_add_mul_ediv i n
      linarith

theorem digitsFast_colMajorNumber {nb loc cc : List Int} (h : InBoxAt nb loc cc) :
    digitsFast nb loc (colMajorNumber nb loc cc) = cc := by
  induction nb generalizing loc cc with
  | nil => cases loc <;> cases cc <;> simp_all [InBoxAt, digitsFast]
  | cons n nb ih =>
    cases loc with
    | nil => simp [InBoxAt] at h
    | cons l loc =>
      cases cc with
      | nil => simp [InBoxAt] at h
      | cons c cc =>
        simp only [InBoxAt] at h
        have hn : 0 < n := by omega
        simp only [digitsFast, colMajorNumber]
        have h1 : (c - l + n * colMajorNumber nb loc cc) % n = c - l := by
          rw [Int.add_mul_emod_self_left]; exact Int.emod_eq_of_lt (by omega) (by omega)
        have h2 : (c - l + n * colMajorNumber nb loc cc) / n = colMajorNumber nb loc cc := by
          rw [Int.add_mul_ediv_left _ _ (by omega), Int.ediv_eq_zero_of_lt (by omega) (by omega)]
          simp
        rw [h1, h2, ih h.2.2]
        congr 1; omega

theorem _root_.Verif.InBoxAt.lengths {nb loc cc : List Int} (h : InBoxAt nb loc cc) :
    loc.length = nb.length ∧ cc.length = nb.length := by
  induction nb generalizing loc cc with
  | nil => cases loc <;> cases cc <;> simp_all [InBoxAt]
  | cons n nb ih =>
    cases loc with
    | nil => simp [InBoxAt] at h
    | cons l loc =>
      cases cc with
      | nil => simp [InBoxAt] at h
      | cons c cc => simp only [InBoxAt] at h; have := ih h.2.2; simp [this]

theorem _root_.Verif.InBoxAt.pos {nb loc cc : List Int} (h : InBoxAt nb loc cc) : Pos nb := by
  induction nb generalizing loc cc with
  | nil => simp [Pos]
  | cons n nb ih =>
    cases loc with
    | nil => simp [InBoxAt] at h
    | cons l loc =>
      cases cc with
      | nil => simp [InBoxAt] at h
      | cons c cc =>
        simp only [InBoxAt] at h
        exact Pos.cons.2 ⟨by omega, ih h.2.2⟩

theorem toInt32_of_range {x : Int} (h1 : -2147483648 ≤ x) (h2 : x < 2147483648) :
    toInt32 x = x := by
  unfold toInt32
  exact Int.bmod_eq_of_le (by norm_num; omega) (by norm_num; omega)

/-- Within 2^31 pixels the narrow loop computes the same numbers. -/
theorem getIndexAux32_eq {nb loc cc : List Int} {r f : Int} (h : InBoxAt nb loc cc) (hr : 0 ≤ r)
    (hf : 0 < f) (hb : r < f) (hs : f * nb.prod ≤ 2147483648) :
    getIndexAux32 r f nb loc cc = getIndexAux r f nb loc cc := by
  induction nb generalizing r f loc cc with
  | nil => cases loc <;> cases cc <;> rfl
  | cons n nb ih =>
    cases loc with
    | nil => simp [InBoxAt] at h
    | cons l loc =>
      cases cc with
      | nil => simp [InBoxAt] at h
      | cons c cc =>
        have hpp := prod_pos_of_pos (Pos.cons.1 (InBoxAt.pos h)).2
        simp only [InBoxAt] at h
        simp only [List.prod_cons] at hs hpp
        have hn : 0 < n := by omega
        have hfn : f * n ≤ f * (n * nb.prod) := by
          have : 0 < f * n := by positivity
          nlinarith
        have hnew : r + (c - l) * f < f * n := by nlinarith
        have h0 : 0 ≤ r + (c - l) * f := by
          have : 0 ≤ (c - l) * f := mul_nonneg (by omega) hf.le
          omega
        simp only [getIndexAux32, getIndexAux]
        rw [toInt32_of_range (by omega) (by omega)]
        cases nb with
        | nil =>
          have h1 : loc = [] := List.length_eq_zero_iff.1 (InBoxAt.lengths h.2.2).1
          subst h1
          rfl
        | cons m nb =>
          simp only [List.isEmpty_cons, Bool.false_eq_true, if_false]
          by_cases hlt : f * n < 2147483648
          · rw [toInt32_of_range (by have : 0 < f * n := by positivity
                                     omega) hlt]
            exact ih h.2.2 h0 (by positivity) hnew (by linarith [mul_assoc f n (m :: nb).prod])
          · -- then all remaining extents are one and all remaining offsets vanish
            have hfe : f * n = 2147483648 := by omega
            have hone : (m :: nb).prod = 1 := by
              have : f * n * (m :: nb).prod ≤ 2147483648 := by linarith [mul_assoc f n (m :: nb).prod]
              rw [hfe] at this; omega
            have key : ∀ (nb loc cc : List Int) (r f g : Int), InBoxAt nb loc cc → nb.prod = 1 →
                0 ≤ r → r < 2147483648 →
                getIndexAux32 r f nb loc cc = r ∧ getIndexAux r g nb loc cc = r := by
              intro nb
              induction nb with
              | nil => intro loc cc r f g h _ _ _
                       cases loc <;> cases cc <;> exact ⟨rfl, rfl⟩
              | cons k nb ih2 =>
                intro loc cc r f g h hp1 hr0 hr1
                have hpp := prod_pos_of_pos (Pos.cons.1 (InBoxAt.pos h)).2
                cases loc with
                | nil => simp [InBoxAt] at h
                | cons l loc =>
                  cases cc with
                  | nil => simp [InBoxAt] at h
                  | cons c cc =>
                    simp only [InBoxAt] at h
                    simp only [List.prod_cons] at hp1 hpp
                    have hk : 0 < k := by omega
                    have hk1 : k = 1 := by
                      by_contra hne
                      have h2 : 2 ≤ k := by omega
                      have := Int.mul_le_mul h2 hpp (by norm_num) hk.le
                      omega
                    have hc : c = l := by omega
                    subst hc
                    have hp2 : nb.prod = 1 := by rw [hk1] at hp1; linarith
                    simp only [getIndexAux32, getIndexAux, sub_self, zero_mul, add_zero]
                    rw [toInt32_of_range (by omega) (by omega)]
                    exact ⟨(ih2 loc cc r _ g h.2.2 hp2 hr0 hr1).1, (ih2 loc cc r f _ h.2.2 hp2 hr0 hr1).2⟩
            have := key (m :: nb) loc cc (r + (c - l) * f) (toInt32 (f * n)) (f * n) h.2.2 hone h0
              (by omega)
            rw [this.1, this.2]

end Verif.Ccoord
