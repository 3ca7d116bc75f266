import Verif.Lemmas.Axes
/-
Helper lemmas on `DynamicPixels`.
-/
namespace Verif.Ccoord.DynamicPixels
open Verif Verif.Ccoord

theorem forAll_ok {α β : Type} {f : α → Res β} {g : α → β} {l : List α}
    (h : ∀ a ∈ l, f a = .ok (g a)) : forAll f l = .ok (l.map g) := by
  induction l with
  | nil => rfl
  | cons a l ih =>
    simp only [forAll, h a (by simp), Res.ok_bind, ih (fun b hb => h b (by simp [hb])),
      Res.pure_eq, List.map_cons]

theorem mkStrided_spec {srt : SortFn} (hsrt : SortSpec srt) {nb loc strides : List Int}
    (hp : Pos nb) (hs : strides.length = nb.length) (hl : (fillLoc nb loc).length = nb.length) :
    ∃ b, mkStrided srt nb loc strides =
        .ok { nb := nb, loc := fillLoc nb loc, strides := strides,
              axes := srt (axesLt nb strides) (List.range nb.length), contiguous := b } ∧
      (b = true ↔ Dense (pick (srt (axesLt nb strides) (List.range nb.length)).reverse nb)
        (pick (srt (axesLt nb strides) (List.range nb.length)).reverse strides)) := by
  obtain ⟨b, hb, hiff⟩ := isBufferContiguous_iff hsrt hs hp
  refine ⟨b, ?_, hiff⟩
  have hax : computeAxesOrder srt nb strides = .ok (srt (axesLt nb strides) (List.range nb.length)) := by
    simp [computeAxesOrder, hs]
  simp [mkStrided, hs, hax, hb, hl]

theorem mkStrided_inv {srt : SortFn} (hsrt : SortSpec srt) {nb loc strides : List Int}
    {p : DynamicPixels} (hp : Pos nb) (h : mkStrided srt nb loc strides = .ok p) :
    strides.length = nb.length ∧ (fillLoc nb loc).length = nb.length ∧
      p.nb = nb ∧ p.loc = fillLoc nb loc ∧ p.strides = strides ∧
      p.axes = srt (axesLt nb strides) (List.range nb.length) ∧
      (p.contiguous = true ↔ Dense (pick p.axes.reverse nb) (pick p.axes.reverse strides)) := by
  by_cases hs : strides.length = nb.length
  · by_cases hl : (fillLoc nb loc).length = nb.length
    · obtain ⟨b, hb, hiff⟩ := mkStrided_spec hsrt hp hs hl
      rw [hb] at h
      cases h
      exact ⟨hs, hl, rfl, rfl, rfl, rfl, hiff⟩
    · exfalso
      obtain ⟨b, hb, _⟩ := isBufferContiguous_iff hsrt hs hp
      have hax : computeAxesOrder srt nb strides =
          .ok (srt (axesLt nb strides) (List.range nb.length)) := by
        simp [computeAxesOrder, hs]
      have hl' : ¬ nb.length = (fillLoc nb loc).length := fun e => hl e.symm
      simp [mkStrided, hs, hax, hb, hl'] at h
  · exfalso; simp [mkStrided, hs] at h

theorem axes_perm {srt : SortFn} (hsrt : SortSpec srt) (nb strides : List Int) (n : Nat) :
    (srt (axesLt nb strides) (List.range n)).Perm (List.range n) :=
  (hsrt _ _ (axesLt_strictWeak nb strides)).1

theorem axes_sorted {srt : SortFn} (hsrt : SortSpec srt) (nb strides : List Int) (n : Nat) :
    (srt (axesLt nb strides) (List.range n)).reverse.Pairwise
      (fun a b => axesLt nb strides a b = false) := by
  rw [List.pairwise_reverse]
  exact (hsrt _ _ (axesLt_strictWeak nb strides)).2

theorem getIndex_of_inBox {p : DynamicPixels} (hs : p.strides.length = p.nb.length) {c : List Int}
    (hc : InBoxAt p.nb p.loc c) : p.getIndex c = .ok (dot p.strides (sub c p.loc)) := by
  have := InBoxAt.lengths hc
  have h1 : p.loc.length = p.strides.length := by omega
  have h2 : c.length = p.strides.length := by omega
  simp [DynamicPixels.getIndex, getIndexFromStrides, h1, h2, indexSum_eq_dot]

/-- A pixel set numbered by a dense axes order. -/
structure Good (p : DynamicPixels) : Prop where
  strides_len : p.strides.length = p.nb.length
  loc_len : p.loc.length = p.nb.length
  perm : p.axes.Perm (List.range p.nb.length)
  dense : Dense (pick p.axes.reverse p.nb) (pick p.axes.reverse p.strides)

theorem Good.coord {p : DynamicPixels} (h : Good p) {c : List Int} (hc : InBoxAt p.nb p.loc c) :
    ∃ i, p.getIndex c = .ok i ∧ 0 ≤ i ∧ i < p.nb.prod ∧ p.getCcoord i = .ok c := by
  refine ⟨dot p.strides (sub c p.loc), getIndex_of_inBox h.strides_len hc, ?_, ?_, ?_⟩
  all_goals have hlen := InBoxAt.lengths hc
  all_goals have hpr := reverse_perm h.perm
  all_goals have hsubl : (sub c p.loc).length = p.nb.length := by simp [sub, hlen]
  all_goals have hbox : InBox (pick p.axes.reverse p.nb) (pick p.axes.reverse (sub c p.loc)) :=
    (inBox_pick hpr hsubl).2 ((inBoxAt_iff hlen.1 hlen.2).1 hc)
  all_goals have hb := h.dense.sd.dot_bounds hbox
  all_goals rw [dot_pick (by rw [h.strides_len]; exact hpr) (by rw [h.strides_len]; omega)] at hb
  all_goals have hsz := h.dense.size
  all_goals rw [pick_prod hpr] at hsz
  · exact hb.1
  · omega
  · exact getCcoordFromAxesOrder_dot h.perm h.strides_len h.dense.sd hc

theorem Good.index {p : DynamicPixels} (h : Good p) {i : Int} (h0 : 0 ≤ i) (hi : i < p.nb.prod) :
    ∃ c, p.getCcoord i = .ok c ∧ InBoxAt p.nb p.loc c ∧ p.getIndex c = .ok i := by
  obtain ⟨c, h1, h2, h3⟩ := getCcoordFromAxesOrder_index (loc := p.loc) h.perm h.strides_len
    h.loc_len h.dense h0 hi
  refine ⟨c, h1, h2, ?_⟩
  rw [getIndex_of_inBox h.strides_len h2, h3]

/-- The visited pixels. -/
theorem Good.visited {p : DynamicPixels} (h : Good p) (hc : p.contiguous = true) :
    ∃ L : List (List Int), p.pixels = .ok L ∧ L.length = p.nb.prod.toNat ∧ L.Nodup ∧
      (∀ c, c ∈ L ↔ InBoxAt p.nb p.loc c) ∧
      (∀ (k : Nat) (hk : k < L.length), p.getIndex L[k] = .ok (k : Int)) ∧
      p.enumerate = .ok ((List.range L.length).map (fun k : Nat => ((k : Int), (L[k]?).getD []))) := by
  have hsz : p.size = p.nb.prod := getSize_eq_prod _
  have hex : ∀ i : Nat, ∃ c, i ∈ List.range p.size.toNat →
      p.getCcoord (i : Int) = .ok c ∧ InBoxAt p.nb p.loc c ∧ p.getIndex c = .ok (i : Int) := by
    intro i
    by_cases hi : i ∈ List.range p.size.toNat
    · have hi' := List.mem_range.1 hi
      obtain ⟨c, hc⟩ := h.index (i := (i : Int)) (by omega) (by omega)
      exact ⟨c, fun _ => hc⟩
    · exact ⟨[], fun h => absurd h hi⟩
  choose g hg using hex
  have hlen : ((List.range p.size.toNat).map g).length = p.nb.prod.toNat := by simp [hsz]
  refine ⟨(List.range p.size.toNat).map g, ?_, hlen, ?_, ?_, ?_, ?_⟩
  · simp only [pixels, hc, if_true]
    exact forAll_ok (fun i hi => (hg i hi).1)
  · rw [List.nodup_map_iff_inj_on List.nodup_range]
    intro i hi j hj hij
    have h1 := (hg i hi).2.2
    have h2 := (hg j hj).2.2
    rw [hij, h2] at h1
    have : (j : Int) = i := by simpa using h1
    omega
  · intro c
    constructor
    · intro hm
      obtain ⟨i, hi, rfl⟩ := List.mem_map.1 hm
      exact (hg i hi).2.1
    · intro hb
      obtain ⟨i, h1, h2, h3, h4⟩ := h.coord hb
      have hi : i.toNat ∈ List.range p.size.toNat := List.mem_range.2 (by omega)
      refine List.mem_map.2 ⟨i.toNat, hi, ?_⟩
      have := (hg i.toNat hi).1
      rw [show ((i.toNat : Nat) : Int) = i by omega, h4] at this
      simpa using this.symm
  · intro k hk
    have hk' : k ∈ List.range p.size.toNat := by simpa using hk
    simpa using (hg k hk').2.2
  · simp only [enumerate, hc, if_true]
    rw [forAll_ok (g := fun i : Nat => ((i : Int), g i))]
    · congr 1
      apply List.ext_getElem
      · simp
      · intro i h1 h2
        have : i < p.size.toNat := by simpa using h1
        simp [this]
    · intro i hi
      simp only [(hg i hi).1, Res.ok_bind, (hg i hi).2.2, Res.pure_eq]

theorem good_of_mkStrided {srt : SortFn} (hsrt : SortSpec srt) {nb loc strides : List Int}
    {p : DynamicPixels} (hp : Pos nb) (h : mkStrided srt nb loc strides = .ok p)
    (hc : p.contiguous = true) : Good p := by
  obtain ⟨h1, h2, h3, h4, h5, h6, h7⟩ := mkStrided_inv hsrt hp h
  refine ⟨by rw [h5, h3, h1], by rw [h4, h3, h2], ?_, ?_⟩
  · rw [h6, h3]; exact axes_perm hsrt nb strides _
  · have := h7.1 hc; rwa [h3, h5]

end Verif.Ccoord.DynamicPixels
