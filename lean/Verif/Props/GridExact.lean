import Verif.Lemmas.Tiling
/-
Exact conditions for C02 and C04: when the default strides of a storage order can be inverted, and which
strides are found contiguous.
-/
namespace Verif.Props
open Verif Verif.Ccoord

/-! ## C02 -/

/-- **C02** exactly: with the stable sort, indices and coordinates of a grid with default strides are mutual
inverses if and only if the pixels are stored in column-major order or no axis with a single point lies
between two axes with several points. -/
theorem C02_exact (colMajor : Bool) (nb loc : List Int) (hp : Pos nb) (h1 : 1 ≤ nb.length)
    (h3 : nb.length ≤ 3) (hl : loc.length = nb.length) :
    (∃ p, DynamicPixels.mkOrdered stableSort colMajor nb loc = .ok p ∧ RoundTrip p nb loc) ↔
      colMajor = true ∨ NoInnerUnit nb := by
  constructor
  · rintro ⟨p, hpk, hrt⟩
    by_contra hno
    push Not at hno
    obtain ⟨hcol, hu⟩ := hno
    have hcol : colMajor = false := by simpa using hcol
    subst hcol
    simp only [NoInnerUnit] at hu
    push Not at hu
    obtain ⟨a, b, c, x, y, z, hab, hbc, ha, hb, hc, hx, hz, hy⟩ := hu
    have hcl := (List.getElem?_eq_some_iff.1 hc).1
    have e : a = 0 ∧ b = 1 ∧ c = 2 := by omega
    obtain ⟨rfl, rfl, rfl⟩ := e
    obtain ⟨x', y', z', rfl⟩ : ∃ x' y' z', nb = [x', y', z'] := by
      match nb, h1, h3, hcl with
      | [u, v, w], _, _, _ => exact ⟨u, v, w, rfl⟩
    obtain ⟨l0, l1, l2, rfl⟩ : ∃ l0 l1 l2, loc = [l0, l1, l2] := by
      match loc, hl with
      | [u, v, w], _ => exact ⟨u, v, w, rfl⟩
    simp at ha hb hc
    subst ha hb hc
    have hy1 : y' = 1 := by have := hp y' (by simp); omega
    subst hy1
    have hz1 : z' ≠ 1 := by omega
    have hlt : ∀ u v : Nat, u < 3 → v < 3 → axesLt [x', 1, z'] [z', z', 1] u v =
        decide (u = 2 ∧ v ≠ 2) := by
      intro u v hu hv
      have : u = 0 ∨ u = 1 ∨ u = 2 := by omega
      have : v = 0 ∨ v = 1 ∨ v = 2 := by omega
      rcases ‹u = 0 ∨ u = 1 ∨ u = 2› with rfl | rfl | rfl <;>
      rcases ‹v = 0 ∨ v = 1 ∨ v = 2› with rfl | rfl | rfl <;>
      simp [axesLt] <;> omega
    have hsort : stableSort (axesLt [x', 1, z'] [z', z', 1]) [0, 1, 2] = [2, 0, 1] := by
      simp [stableSort, insertBy, hlt]
    simp [DynamicPixels.mkOrdered, dynRowMajorStrides, rowMajorStrides, getSize,
      DynamicPixels.mkStrided, computeAxesOrder, DynamicPixels.fillLoc,
      show List.range 3 = [0, 1, 2] from rfl, hsort] at hpk
    obtain ⟨cg, -, hcg⟩ := Res.bind_eq_ok.1 hpk
    cases hcg
    obtain ⟨i, hi1, -, -, hi4⟩ := hrt.1 [1 + l0, l1, l2] (by simp [InBoxAt]; omega)
    simp [DynamicPixels.getIndex, getIndexFromStrides, indexSum] at hi1
    subst hi1
    simp [DynamicPixels.getCcoord, getCcoordFromAxesOrder, ccoordLoop, at!,
      show z' ≠ 0 by omega] at hi4
  · rintro (rfl | hu)
    · exact C02_col_major_stable nb loc hp h1 h3 hl
    · obtain ⟨p, h, hr, -⟩ := C02_partial stableSort_spec colMajor nb loc hp h1 h3 hl hu
      exact ⟨p, h, hr⟩

example : Pos [5, 1, 3] ∧ ¬ NoInnerUnit [5, 1, 3] ∧ NoInnerUnit [5, 3, 1] ∧
    DynamicPixels.mkOrdered stableSort true [5, 1, 3] [0, 0, 0] =
      .ok ⟨[5, 1, 3], [0, 0, 0], [1, 5, 5], [0, 1, 2], true⟩ := by
  refine ⟨by decide, ?_, ?_, by decide⟩
  · intro h
    have := h 0 1 2 5 1 3 (by decide) (by decide) rfl rfl rfl (by decide) (by decide)
    omega
  · intro a b c x y z hab hbc ha hb hc hx hz
    have h1 := (List.getElem?_eq_some_iff.1 hc).1
    simp only [List.length_cons, List.length_nil] at h1
    have e : a = 0 ∧ b = 1 ∧ c = 2 := by omega
    obtain ⟨rfl, rfl, rfl⟩ := e
    simp at hc
    omega

/-! ## C04 -/

/-- **C04** exactly: with the stable sort, strides are found contiguous if and only if they are those of a
dense array in some order of the axes and no axis with several points comes before an axis with one point
and the same stride (other than 1). -/
theorem C04_exact {nb strides : List Int} (hp : Pos nb) (hs : strides.length = nb.length) :
    isBufferContiguous stableSort nb strides = .ok true ↔
      DenseStrides nb strides ∧
      ∀ a b : Nat, a < b → strides[a]?.getD 0 = strides[b]?.getD 0 → strides[a]?.getD 0 ≠ 1 →
        1 < nb[a]?.getD 0 → nb[b]?.getD 0 ≠ 1 := by
  obtain ⟨r, hr, hiff⟩ := isBufferContiguous_iff stableSort_spec hs hp
  have hperm := DynamicPixels.axes_perm stableSort_spec nb strides nb.length
  have hsorted := DynamicPixels.axes_sorted stableSort_spec nb strides nb.length
  have hstable := stableSort_stable (axesLt_strictWeak nb strides)
    (l := List.range nb.length) List.pairwise_lt_range
  have hst := List.pairwise_reverse.2 hstable
  have hrp := reverse_perm hperm
  rw [hr]
  constructor
  · intro h
    cases h
    have hd := hiff.1 rfl
    refine ⟨⟨hs, _, hrp, hd⟩, ?_⟩
    intro a b hab he h1 hna hnb
    have hlen : ∀ k : Nat, nb[k]?.getD 0 ≠ 0 → k < nb.length := by
      intro k hk; by_contra hc; exact hk (by simp [List.getElem?_eq_none (by omega : nb.length ≤ k)])
    have hb : b ∈ (stableSort (axesLt nb strides) (List.range nb.length)).reverse :=
      hrp.mem_iff.2 (by simpa using hlen b (by omega))
    have ha : a ∈ (stableSort (axesLt nb strides) (List.range nb.length)).reverse :=
      hrp.mem_iff.2 (by simpa using hlen a (by omega))
    obtain ⟨pre, post, hpp⟩ := List.append_of_mem hb
    have hst' := hst
    rw [hpp] at ha hst'
    have hap : a ∈ post := by
      rcases List.mem_append.1 ha with h | h
      · have h2 := (List.pairwise_append.1 hst').2.2 a h b (by simp)
        have := h2.2 (by rw [axesLt_false_iff]; omega)
        omega
      · rcases List.mem_cons.1 h with h | h
        · omega
        · exact h
    have h5 := dense_le hd hpp hap
    have h6 := dense_stride_pos hd (x := a) (by rw [hpp]; simp [hap])
    nlinarith
  · rintro ⟨⟨-, bx, hbp, hbd⟩, hc⟩
    have := hiff.2 (dense_of_sorted (perm_range_nodup hbp) (hrp.trans hbp.symm) hbd hsorted (by
      intro pre' a post' x he hx heq hs1 hn1 hx1
      have hst' := hst
      rw [he] at hst'
      have h4 := (List.pairwise_cons.1 (List.pairwise_append.1 hst').2.1).1 x hx
      have hxa : x < a := h4.2 (by rw [axesLt_false_iff]; omega)
      exact hc x a hxa heq.symm (by omega) hx1 hn1))
    rw [this]

/-- **C02** Exactly which grids -/

example : DenseStrides [5, 1, 3] [3, 3, 1] ∧ isBufferContiguous stableSort [5, 1, 3] [3, 3, 1] = .ok false ∧
    isBufferContiguous stableSort [1, 5, 3] [3, 3, 1] = .ok true :=
  ⟨⟨by decide, [0, 1, 2], by decide, by simp [pick, Dense, maxIdx]⟩, by decide, by decide⟩

/-- **C04** for grids with several points along every axis and any sort: strides (of any sign) are found
contiguous if and only if they number the pixels 0, 1, ..., size-1 without gap or overlap. -/
theorem C04_numbers {srt : SortFn} (hsrt : SortSpec srt) {nb strides : List Int} (hp : ∀ n ∈ nb, 2 ≤ n)
    (hs : strides.length = nb.length) :
    isBufferContiguous srt nb strides = .ok true ↔ NumbersAll nb strides := by
  have hpos : Pos nb := fun m hm => by have := hp m hm; omega
  constructor
  · exact fun h => (C04_sound hsrt hpos hs h).2
  · intro h
    obtain ⟨b, hb, hiff⟩ := isBufferContiguous_iff hsrt hs hpos
    rw [hb, hiff.2 (dense_of_numbersAll hsrt hp hs h)]

example : (∀ n ∈ ([4, 2, 3] : List Int), 2 ≤ n) ∧ isBufferContiguous stableSort [4, 2, 3] [6, 1, 2] = .ok true ∧
    isBufferContiguous stableSort [4, 2, 3] [6, 3, 1] = .ok true ∧
    isBufferContiguous stableSort [4, 2, 3] [7, 1, 2] = .ok false := by decide

end Verif.Props
