import Verif.Lemmas.Tiling
/-
C02 for strides with gaps, and the free function `get_ccoord_from_strides`.
-/
namespace Verif.Props
open Verif Verif.Ccoord

/-- Along nested strides of axes with several points the strides decrease. -/
theorem sd_decreasing {nb strides : List Int} {bx : List Nat} (h : SD (pick bx nb) (pick bx strides))
    (h2 : ∀ a ∈ bx, 2 ≤ nb[a]?.getD 0) :
    bx.Pairwise fun a b => strides[b]?.getD 0 < strides[a]?.getD 0 := by
  have key : ∀ (bx : List Nat), SD (pick bx nb) (pick bx strides) → (∀ a ∈ bx, 2 ≤ nb[a]?.getD 0) → ∀ b ∈ bx,
      strides[b]?.getD 0 ≤ maxIdx (pick bx nb) (pick bx strides) := by
    intro bx
    induction bx with
    | nil => simp
    | cons a bx ih =>
      intro h h2 b hb
      simp only [pick, List.map_cons, SD, maxIdx] at h ⊢
      have hn := h2 a (by simp)
      have hmax := h.2.2.maxIdx_nonneg
      rcases List.mem_cons.1 hb with rfl | hb
      · nlinarith [h.2.1]
      · have h3 := ih h.2.2 (fun a ha => h2 a (by simp [ha])) b hb
        have h4 : 0 ≤ (nb[a]?.getD 0 - 1) * strides[a]?.getD 0 := mul_nonneg (by omega) (by omega)
        simp only [pick] at h3
        omega
  induction bx with
  | nil => exact .nil
  | cons a bx ih =>
    simp only [pick, List.map_cons, SD] at h
    refine .cons ?_ (ih h.2.2 fun a ha => h2 a (by simp [ha]))
    intro b hb
    have := key bx h.2.2 (fun a ha => h2 a (by simp [ha])) b hb
    simp only [pick] at this
    omega

/-- The axes in the order of the sort are the axes in the nested order. -/
theorem axes_of_nested {srt : SortFn} (hsrt : SortSpec srt) {nb strides : List Int} (hp : ∀ n ∈ nb, 2 ≤ n)
    {order : List Nat} (ho : order.Perm (List.range nb.length)) (h : SD (pick order nb) (pick order strides)) :
    (srt (axesLt nb strides) (List.range nb.length)).reverse = order := by
  have h2 : ∀ a ∈ order, 2 ≤ nb[a]?.getD 0 := by
    intro a ha
    have : a < nb.length := by simpa using ho.mem_iff.1 ha
    rw [List.getElem?_eq_getElem this]
    exact hp _ (List.getElem_mem this)
  have hpw := sd_decreasing h h2
  have hperm := (reverse_perm (DynamicPixels.axes_perm hsrt nb strides nb.length)).trans ho.symm
  refine List.Perm.eq_of_pairwise (le := fun a b => axesLt nb strides a b = false) ?_
    (DynamicPixels.axes_sorted hsrt nb strides nb.length) (hpw.imp ?_) hperm
  · intro a b ha hb hab hba
    rw [axesLt_false_iff] at hab hba
    obtain ⟨u, v, he⟩ := List.append_of_mem (hperm.mem_iff.1 ha)
    rw [he] at hb hpw
    rcases List.mem_append.1 hb with hb | hb
    · have := (List.pairwise_append.1 hpw).2.2 b hb a (by simp)
      omega
    · rcases List.mem_cons.1 hb with hb | hb
      · exact hb.symm
      · have := (List.pairwise_cons.1 (List.pairwise_append.1 hpw).2.1).1 b hb
        omega
  · intro a b hab
    rw [axesLt_false_iff]
    omega

/-- **C02** `get_ccoord_from_strides` is `get_ccoord` of a pixel set with the same strides. -/
theorem C02_from_strides (srt : SortFn) {nb loc strides : List Int} {p : DynamicPixels}
    (h : DynamicPixels.mkStrided srt nb loc strides = .ok p) (i : Int) :
    getCcoordFromStrides srt nb p.loc strides i = p.getCcoord i := by
  unfold DynamicPixels.mkStrided at h
  split at h
  · cases h
  · simp only [Res.bind_eq_ok] at h
    obtain ⟨ax, h1, b, h2, h3⟩ := h
    split at h3
    · cases h3
    · cases h3
      simp [getCcoordFromStrides, DynamicPixels.getCcoord, h1]

/-- **C02** Also with strides that leave gaps between the pixels (of padded, transposed or cut-out arrays), for grids with
several points along every axis: `get_ccoord` of the index of a pixel is the pixel, and so is `get_ccoord_from_strides`. -/
theorem C02_gaps {srt : SortFn} (hsrt : SortSpec srt) {nb loc strides : List Int} (hp : ∀ n ∈ nb, 2 ≤ n)
    (hl : loc.length = nb.length) (h0 : nb ≠ []) (hn : NestedStrides nb strides) :
    ∃ p, DynamicPixels.mkStrided srt nb loc strides = .ok p ∧ ∀ c, InBoxAt nb loc c →
      ∃ i, p.getIndex c = .ok i ∧ 0 ≤ i ∧ p.getCcoord i = .ok c ∧ getCcoordFromStrides srt nb loc strides i = .ok c := by
  obtain ⟨hs, order, ho, hsd⟩ := hn
  have hpos : Pos nb := fun m hm => by have := hp m hm; omega
  have hloc : DynamicPixels.fillLoc nb loc = loc := by
    have : ¬ loc.length = 0 := by rw [hl]; exact fun h => h0 (List.length_eq_zero_iff.1 h)
    simp [DynamicPixels.fillLoc, this]
  obtain ⟨b, hb, -⟩ := DynamicPixels.mkStrided_spec hsrt (loc := loc) hpos hs (by rw [hloc, hl])
  rw [hloc] at hb
  refine ⟨_, hb, fun c hc => ?_⟩
  have hax := axes_of_nested hsrt hp ho hsd
  have hg := getCcoordFromAxesOrder_dot (loc := loc) (DynamicPixels.axes_perm hsrt nb strides nb.length) hs
    (by rw [hax]; exact hsd) hc
  refine ⟨dot strides (sub c loc), DynamicPixels.getIndex_of_inBox hs hc, ?_, hg,
    (C02_from_strides srt hb _).trans hg⟩
  have hlen := InBoxAt.lengths hc
  have hsubl : (sub c loc).length = nb.length := by simp [sub, hlen]
  have hb := hsd.dot_bounds ((inBox_pick ho hsubl).2 ((inBoxAt_iff hlen.1 hlen.2).1 hc))
  rw [dot_pick (by rw [hs]; exact ho) (by rw [hs]; omega)] at hb
  exact hb.1

/-- Every second pixel of every row of a larger array: the pixel (2, 1, 3). -/
example : (∀ n ∈ ([3, 2, 4] : List Int), 2 ≤ n) ∧ NestedStrides [3, 2, 4] [2, 70, 10] ∧
    getIndexFromStrides [2, 70, 10] [0, 0, 0] [2, 1, 3] = .ok 104 ∧
    getCcoordFromStrides stableSort [3, 2, 4] [0, 0, 0] [2, 70, 10] 104 = .ok [2, 1, 3] :=
  ⟨by decide, ⟨by decide, [1, 2, 0], by decide, by simp [pick, SD, maxIdx]⟩, by decide, by decide⟩

/-- The condition on the extents is needed: with an axis of one point the strides are taken in the wrong order. -/
example : NestedStrides [5, 1, 3] [3, 3, 1] ∧ getIndexFromStrides [3, 3, 1] [0, 0, 0] [1, 0, 0] = .ok 3 ∧
    getCcoordFromStrides stableSort [5, 1, 3] [0, 0, 0] [3, 3, 1] 3 = .ok [0, 1, 0] :=
  ⟨⟨by decide, [0, 1, 2], by decide, by simp [pick, SD, maxIdx]⟩, by decide, by decide⟩

end Verif.Props
