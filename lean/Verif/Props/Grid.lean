import Verif.Lemmas.Pixels
import Mathlib.Tactic.LinearCombination
/-
Properties C01-C07: grids, linear indices, coordinates, pixel iteration, contiguity, buffer size.
Specification vocabulary is in `Verif.Spec.Box`; `Pos nb` says that all extents are positive.
-/
namespace Verif.Props
open Verif Verif.Ccoord

/-! ## C01 -/

/-- **C01** Column-major index and coordinate functions are mutual inverses, and number the pixels
with the first coordinate running fastest. -/
theorem C01_col_major_round_trip (nb loc : List Int) (hp : Pos nb) (hl : loc.length = nb.length) :
    (∀ i, 0 ≤ i → i < nbPixels nb →
      ∃ c, getCcoord nb loc i = .ok c ∧ InBoxAt nb loc c ∧ colMajorNumber nb loc c = i ∧
        getIndex nb loc c = .ok i) ∧
    (∀ c, InBoxAt nb loc c →
      getIndex nb loc c = .ok (colMajorNumber nb loc c) ∧
      0 ≤ colMajorNumber nb loc c ∧ colMajorNumber nb loc c < nbPixels nb ∧
      getCcoord nb loc (colMajorNumber nb loc c) = .ok c) := by
  have hidx : ∀ c, InBoxAt nb loc c → getIndex nb loc c = .ok (colMajorNumber nb loc c) := by
    intro c hc
    have := InBoxAt.lengths hc
    simp [getIndex, this, getIndexAux_eq 0 1 this.1 this.2]
  have hcoord : ∀ i, 0 ≤ i → getCcoord nb loc i = .ok (digitsFast nb loc i) := by
    intro i h0
    have := getCcoordAux_eq hl hp (f := 1) (by norm_num) h0
    rwa [Int.ediv_one] at this
  constructor
  · intro i h0 hi
    rw [nbPixels_eq_prod] at hi
    refine ⟨digitsFast nb loc i, hcoord i h0, digitsFast_inBox hl hp i,
      colMajorNumber_digitsFast hl hp h0 hi, ?_⟩
    rw [hidx _ (digitsFast_inBox hl hp i), colMajorNumber_digitsFast hl hp h0 hi]
  · intro c hc
    have hb := colMajorNumber_bounds hc
    rw [nbPixels_eq_prod]
    refine ⟨hidx c hc, hb.1, hb.2, ?_⟩
    rw [hcoord _ hb.1, digitsFast_colMajorNumber hc]

example : Pos [3, 1, 4] ∧ ([-2, 0, 7] : List Int).length = [3, 1, 4].length ∧
    getCcoord [3, 1, 4] [-2, 0, 7] 7 = .ok [-1, 0, 9] ∧
    getIndex [3, 1, 4] [-2, 0, 7] [-1, 0, 9] = .ok 7 := by decide

/-- **C01** A coordinate or origin of another dimension is rejected by `get_index`. -/
theorem C01_dimension_mismatch (nb loc c : List Int)
    (h : loc.length ≠ nb.length ∨ c.length ≠ nb.length) :
    getIndex nb loc c = .throw .runtimeError := by
  by_cases h1 : loc.length = nb.length
  · have h2 : c.length ≠ nb.length := by tauto
    simp [getIndex, h1, h2]
  · simp [getIndex, h1]

example : getIndex [3, 4] [0, 0] [1, 1, 1] = .throw .runtimeError := by decide

/-! ## C02 -/

/-- Indices and coordinates of a pixel set are mutual inverses. -/
def RoundTrip (p : DynamicPixels) (nb loc : List Int) : Prop :=
  (∀ c, InBoxAt nb loc c →
    ∃ i, p.getIndex c = .ok i ∧ 0 ≤ i ∧ i < nbPixels nb ∧ p.getCcoord i = .ok c) ∧
  (∀ i, 0 ≤ i → i < nbPixels nb →
    ∃ c, p.getCcoord i = .ok c ∧ InBoxAt nb loc c ∧ p.getIndex c = .ok i)

/-- The number of a pixel in the given storage order. -/
def orderedNumber (colMajor : Bool) (nb loc c : List Int) : Int :=
  if colMajor then colMajorNumber nb loc c else rowMajorNumber nb loc c

/-- The full claim **C02** for one implementation of `std::sort`. -/
def C02_statement (srt : SortFn) : Prop :=
  ∀ (colMajor : Bool) (nb loc : List Int), Pos nb → 1 ≤ nb.length → nb.length ≤ 3 →
    loc.length = nb.length →
    ∃ p, DynamicPixels.mkOrdered srt colMajor nb loc = .ok p ∧ RoundTrip p nb loc

/-- **C02** is false of the code: with row-major pixel strides on a 5 × 1 × 3 grid the axes with
strides 3 and 3 are taken in the wrong order and pixel (1,0,0), which has index 3, is
reported to have the coordinate (0,1,0). -/
theorem C02_false : ¬ C02_statement stableSort := by
  intro h
  obtain ⟨p, hp, hrt, -⟩ := h false [5, 1, 3] [0, 0, 0] (by decide) (by decide) (by decide) (by decide)
  have hp' : DynamicPixels.mkOrdered stableSort false [5, 1, 3] [0, 0, 0] =
      .ok ⟨[5, 1, 3], [0, 0, 0], [3, 3, 1], [2, 0, 1], false⟩ := by decide
  rw [hp'] at hp
  cases hp
  obtain ⟨i, h1, -, -, h4⟩ := hrt [1, 0, 0] (by decide)
  have h1' : DynamicPixels.getIndex ⟨[5, 1, 3], [0, 0, 0], [3, 3, 1], [2, 0, 1], false⟩ [1, 0, 0] =
      .ok 3 := by decide
  rw [h1'] at h1
  cases h1
  revert h4; decide

/-- No axis with a single point lies between two axes with several points. -/
def NoInnerUnit (nb : List Int) : Prop :=
  ∀ (a b c : Nat) (x y z : Int), a < b → b < c → nb[a]? = some x → nb[b]? = some y →
    nb[c]? = some z → 1 < x → 1 < z → 1 < y

theorem noInnerUnit_range {nb : List Int} (h : NoInnerUnit nb) :
    ∀ p b q a r c t, List.range nb.length = p ++ b :: (q ++ a :: (r ++ c :: t)) →
      1 < nb[b]?.getD 0 → 1 < nb[c]?.getD 0 → 1 < nb[a]?.getD 0 := by
  intro p b q a r c t he hb hc
  have hs : (List.range nb.length).Pairwise (· < ·) := List.pairwise_lt_range
  rw [he] at hs
  have h1 := (List.pairwise_append.1 hs).2.1
  have h2 := List.pairwise_cons.1 h1
  have hba : b < a := h2.1 a (by simp)
  have h3 := (List.pairwise_append.1 h2.2).2.1
  have hac : a < c := (List.pairwise_cons.1 h3).1 c (by simp)
  have hcl : c < nb.length := by
    have : c ∈ List.range nb.length := by rw [he]; simp
    exact List.mem_range.1 this
  have hal : a < nb.length := by omega
  have hbl : b < nb.length := by omega
  simp only [List.getElem?_eq_getElem, hcl, hal, hbl, Option.getD_some] at hb hc ⊢
  exact h b a c nb[b] nb[a] nb[c] hba hac (by simp [hbl]) (by simp [hal]) (by simp [hcl]) hb hc

theorem noInnerUnit_range_reverse {nb : List Int} (h : NoInnerUnit nb) :
    ∀ p b q a r c t, (List.range nb.length).reverse = p ++ b :: (q ++ a :: (r ++ c :: t)) →
      1 < nb[b]?.getD 0 → 1 < nb[c]?.getD 0 → 1 < nb[a]?.getD 0 := by
  intro p b q a r c t he hb hc
  have := congrArg List.reverse he
  simp only [List.reverse_reverse, List.reverse_append, List.reverse_cons, List.append_assoc,
    List.cons_append, List.nil_append] at this
  exact noInnerUnit_range h _ c _ a _ b _ this hc hb

/-- The axes order found for default strides is dense unless an inner axis has a single point. -/
theorem ordered_good {srt : SortFn} (hsrt : SortSpec srt) (colMajor : Bool) {nb loc : List Int}
    (hp : Pos nb) (h1 : 1 ≤ nb.length) (h3 : nb.length ≤ 3) (hl : loc.length = nb.length)
    (hu : NoInnerUnit nb) :
    ∃ p, DynamicPixels.mkOrdered srt colMajor nb loc = .ok p ∧ p.Good ∧ p.contiguous = true ∧
      p.nb = nb ∧ p.loc = loc ∧
      p.strides = if colMajor then colMajorStrides nb else rowMajorStrides nb := by
  have hdim : nb.length = 1 ∨ nb.length = 2 ∨ nb.length = 3 := by omega
  have hloc : DynamicPixels.fillLoc nb loc = loc := by
    have : ¬ loc.length = 0 := by omega
    simp [DynamicPixels.fillLoc, this]
  have key : ∀ strides : List Int, strides.length = nb.length →
      (∃ bx : List Nat, bx.Perm (List.range nb.length) ∧ bx.Nodup ∧
        Dense (pick bx nb) (pick bx strides) ∧
        ∀ p b q a r c t, bx = p ++ b :: (q ++ a :: (r ++ c :: t)) → 1 < nb[b]?.getD 0 →
          1 < nb[c]?.getD 0 → 1 < nb[a]?.getD 0) →
      ∃ p, DynamicPixels.mkStrided srt nb loc strides = .ok p ∧ p.Good ∧ p.contiguous = true ∧
        p.nb = nb ∧ p.loc = loc ∧ p.strides = strides := by
    rintro strides hs ⟨bx, hbp, hbn, hbd, hbc⟩
    obtain ⟨b, hb, hiff⟩ := DynamicPixels.mkStrided_spec hsrt (loc := loc) hp hs
      (by rw [hloc, hl])
    have hperm := DynamicPixels.axes_perm hsrt nb strides nb.length
    have hsorted := DynamicPixels.axes_sorted hsrt nb strides nb.length
    have hd := dense_of_sorted_convex hbn ((reverse_perm hperm).trans hbp.symm) hbd hsorted hbc
    have hbt := hiff.2 hd
    subst hbt
    refine ⟨_, hb, ⟨hs, by simp [hloc, hl], hperm, hd⟩, rfl, rfl, hloc, rfl⟩
  cases colMajor with
  | true =>
    obtain ⟨p, hpk, hg⟩ := key (colMajorStrides nb) (colMajorStrides_length nb)
      ⟨(List.range nb.length).reverse, List.reverse_perm _, by simp [List.nodup_range], by
        rw [pick_reverse, pick_reverse, pick_range, pick_range' (colMajorStrides_length nb)]
        exact dense_colMajor hp, noInnerUnit_range_reverse hu⟩
    exact ⟨p, by simp [DynamicPixels.mkOrdered, dynColMajorStrides, hdim, hpk], by simpa using hg⟩
  | false =>
    obtain ⟨p, hpk, hg⟩ := key (rowMajorStrides nb) (rowMajorStrides_length nb)
      ⟨List.range nb.length, List.Perm.refl _, List.nodup_range, by
        rw [pick_range, pick_range' (rowMajorStrides_length nb)]
        exact dense_rowMajor hp, noInnerUnit_range hu⟩
    exact ⟨p, by simp [DynamicPixels.mkOrdered, dynRowMajorStrides, hdim, hpk], by simpa using hg⟩

theorem roundTrip_of_good {p : DynamicPixels} {nb loc : List Int} (h : p.Good) (hn : p.nb = nb)
    (hl : p.loc = loc) : RoundTrip p nb loc := by
  subst hn hl
  constructor
  · intro c hc
    rw [nbPixels_eq_prod]; exact h.coord hc
  · intro i h0 hi
    rw [nbPixels_eq_prod] at hi; exact h.index h0 hi

/-- **C02** holds, for every sort and both storage orders, if no axis with a single point lies
between two axes with several points.  What is missing: grids with such an axis, for which the
claim is false (`C02_false`). -/
theorem C02_partial {srt : SortFn} (hsrt : SortSpec srt) (colMajor : Bool) (nb loc : List Int)
    (hp : Pos nb) (h1 : 1 ≤ nb.length) (h3 : nb.length ≤ 3) (hl : loc.length = nb.length)
    (hu : NoInnerUnit nb) :
    ∃ p, DynamicPixels.mkOrdered srt colMajor nb loc = .ok p ∧ RoundTrip p nb loc ∧
      ∀ c, InBoxAt nb loc c → p.getIndex c = .ok (orderedNumber colMajor nb loc c) := by
  obtain ⟨p, hpk, hg, -, hn, hlo, hst⟩ := ordered_good hsrt colMajor hp h1 h3 hl hu
  refine ⟨p, hpk, roundTrip_of_good hg hn hlo, ?_⟩
  intro c hc
  rw [DynamicPixels.getIndex_of_inBox hg.strides_len (by rw [hn, hlo]; exact hc), hst, hlo]
  have := InBoxAt.lengths hc
  cases colMajor with
  | true =>
    simp only [if_true, orderedNumber, colMajorStrides]
    rw [dot_colMajorAux this.1 this.2, one_mul]
  | false =>
    simp only [Bool.false_eq_true, if_false, orderedNumber]
    rw [dot_rowMajor this.1 this.2]

example : SortSpec stableSort ∧ Pos [5, 3, 1] ∧ NoInnerUnit [5, 3, 1] ∧
    (DynamicPixels.mkOrdered stableSort false [5, 3, 1] [1, 0, 0]) =
      .ok ⟨[5, 3, 1], [1, 0, 0], [3, 1, 1], [2, 1, 0], true⟩ := by
  refine ⟨stableSort_spec, by decide, ?_, by decide⟩
  intro a b c x y z hab hbc ha hb hc hx hz
  have hc3 : c < 3 := by
    by_contra h; rw [List.getElem?_eq_none (by simp; omega)] at hc; cases hc
  have : a = 0 ∧ b = 1 ∧ c = 2 := by omega
  obtain ⟨rfl, rfl, rfl⟩ := this
  simp at hc; omega

/-- A stable sort puts the axes of column-major strides into a dense order. -/
theorem dense_col_major_stable {nb : List Int} (hp : Pos nb) :
    Dense (pick (stableSort (axesLt nb (colMajorStrides nb)) (List.range nb.length)).reverse nb)
      (pick (stableSort (axesLt nb (colMajorStrides nb)) (List.range nb.length)).reverse (colMajorStrides nb)) := by
  have hperm := DynamicPixels.axes_perm stableSort_spec nb (colMajorStrides nb) nb.length
  have hsorted := DynamicPixels.axes_sorted stableSort_spec nb (colMajorStrides nb) nb.length
  have hstable := stableSort_stable (axesLt_strictWeak nb (colMajorStrides nb))
    (l := List.range nb.length) List.pairwise_lt_range
  have hbd : Dense (pick (List.range nb.length).reverse nb)
      (pick (List.range nb.length).reverse (colMajorStrides nb)) := by
    rw [pick_reverse, pick_reverse, pick_range, pick_range' (colMajorStrides_length nb)]
    exact dense_colMajor hp
  have hbp : (List.range nb.length).reverse.Perm (List.range nb.length) := List.reverse_perm _
  exact dense_of_sorted (bx := (List.range nb.length).reverse)
    (by simp [List.nodup_range]) ((reverse_perm hperm).trans hbp.symm) hbd hsorted (by
      intro pre' a post' x he hx heq hs1 hn1 hx1
      -- `x` is sorted before `a`, with equal stride, hence `x < a`
      have hst := List.pairwise_reverse.2 hstable
      rw [he] at hst
      have h4 := (List.pairwise_cons.1 (List.pairwise_append.1 hst).2.1).1 x hx
      have hlt : axesLt nb (colMajorStrides nb) x a = false := by
        rw [axesLt_false_iff]; omega
      have hxa : x < a := h4.2 hlt
      have ham : a ∈ (List.range nb.length).reverse :=
        ((reverse_perm hperm).trans hbp.symm).mem_iff.1 (by rw [he]; simp)
      have hal : a < nb.length := by simpa using ham
      -- so `a` is slower than `x` in the column-major order
      obtain ⟨p1, p2, hpp⟩ := List.append_of_mem ham
      have hxm : x ∈ (List.range nb.length).reverse := by simp; omega
      have hpw : (List.range nb.length).reverse.Pairwise (· > ·) := by
        rw [List.pairwise_reverse]; exact List.pairwise_lt_range
      have hxp : x ∈ p2 := by
        rw [hpp] at hxm hpw
        rcases List.mem_append.1 hxm with h | h
        · have := (List.pairwise_append.1 hpw).2.2 x h a (by simp)
          omega
        · rcases List.mem_cons.1 h with h | h
          · omega
          · exact h
      have h5 := dense_le hbd hpp hxp
      have h6 := dense_stride_pos hbd hxm
      nlinarith)

/-- **C02** for column-major strides and a stable sort (as in libstdc++) holds without restriction
on the extents. -/
theorem C02_col_major_stable (nb loc : List Int) (hp : Pos nb) (h1 : 1 ≤ nb.length)
    (h3 : nb.length ≤ 3) (hl : loc.length = nb.length) :
    ∃ p, DynamicPixels.mkOrdered stableSort true nb loc = .ok p ∧ RoundTrip p nb loc := by
  have hdim : nb.length = 1 ∨ nb.length = 2 ∨ nb.length = 3 := by omega
  have hloc : DynamicPixels.fillLoc nb loc = loc := by
    have : ¬ loc.length = 0 := by omega
    simp [DynamicPixels.fillLoc, this]
  obtain ⟨b, hb, hiff⟩ := DynamicPixels.mkStrided_spec stableSort_spec (loc := loc) hp
    (colMajorStrides_length nb) (by rw [hloc, hl])
  have hperm := DynamicPixels.axes_perm stableSort_spec nb (colMajorStrides nb) nb.length
  have hd := dense_col_major_stable hp
  have hbt := hiff.2 hd
  subst hbt
  have hmk : DynamicPixels.mkOrdered stableSort true nb loc =
      DynamicPixels.mkStrided stableSort nb loc (colMajorStrides nb) := by
    simp [DynamicPixels.mkOrdered, dynColMajorStrides, hdim]
  refine ⟨_, hmk.trans hb, roundTrip_of_good
    ⟨colMajorStrides_length nb, by simp [hloc, hl], hperm, hd⟩ rfl hloc⟩

example : Pos [3, 1, 5] ∧ (DynamicPixels.mkOrdered stableSort true [3, 1, 5] [0, 0, 0]) =
    .ok ⟨[3, 1, 5], [0, 0, 0], [1, 3, 3], [0, 1, 2], true⟩ := by decide

/-- **C02** Dimensions other than 1, 2 and 3 are rejected. -/
theorem C02_dimension (srt : SortFn) (colMajor : Bool) (nb loc : List Int)
    (h : nb.length = 0 ∨ 3 < nb.length) :
    DynamicPixels.mkOrdered srt colMajor nb loc = .throw .runtimeError := by
  have hd : ¬ (nb.length = 1 ∨ nb.length = 2 ∨ nb.length = 3) := by omega
  cases colMajor <;>
    simp [DynamicPixels.mkOrdered, dynColMajorStrides, dynRowMajorStrides, hd]

example : DynamicPixels.mkOrdered stableSort true [2, 2, 2, 2] [] = .throw .runtimeError := by decide

/-! ## C03 -/

/-- What a complete iteration over the pixels of a grid must produce. -/
structure CompleteIteration (p : DynamicPixels) (nb loc : List Int) (L : List (List Int)) : Prop where
  /-- every pixel of the grid is visited and nothing else -/
  mem_iff : ∀ c, c ∈ L ↔ InBoxAt nb loc c
  /-- none is visited twice -/
  nodup : L.Nodup
  /-- as many steps as pixels -/
  length : (L.length : Int) = nbPixels nb
  /-- the `k`-th visited pixel has index `k` -/
  index : ∀ (k : Nat) (hk : k < L.length), p.getIndex L[k] = .ok (k : Int)

/-- **C03** Whenever iteration over a pixel set (built with any strides, by any sort) is permitted,
it visits every pixel of the subdomain exactly once, in the order of the linear index, and
`enumerate` pairs each pixel with its index. -/
theorem C03_iteration {srt : SortFn} (hsrt : SortSpec srt) {nb loc strides : List Int}
    {p : DynamicPixels} (hp : Pos nb) (h : DynamicPixels.mkStrided srt nb loc strides = .ok p)
    (hit : p.pixels ≠ .throw .runtimeError) :
    ∃ L E, p.pixels = .ok L ∧ CompleteIteration p p.nb p.loc L ∧ p.nb = nb ∧
      p.loc = (if loc = [] then List.replicate nb.length 0 else loc) ∧
      p.enumerate = .ok E ∧ E.map Prod.snd = L ∧
      E.map Prod.fst = (List.range L.length).map (fun k : Nat => (k : Int)) := by
  have hc : p.contiguous = true := by
    by_contra hc
    exact hit (by simp [DynamicPixels.pixels, hc])
  have hg := DynamicPixels.good_of_mkStrided hsrt hp h hc
  obtain ⟨-, -, h3, h4, -, -, -⟩ := DynamicPixels.mkStrided_inv hsrt hp h
  obtain ⟨L, l1, l2, l3, l4, l5, l6⟩ := hg.visited hc
  refine ⟨L, _, l1, ⟨l4, l3, ?_, l5⟩, h3, ?_, l6, ?_, ?_⟩
  · rw [nbPixels_eq_prod, l2]
    have : 0 < p.nb.prod := prod_pos_of_pos (by rw [h3]; exact hp)
    omega
  · rw [h4]; simp [DynamicPixels.fillLoc]
  · apply List.ext_getElem
    · simp
    · intro i a b; simp [b]
  · apply List.ext_getElem
    · simp
    · intro i a b; simp

example : Pos [2, 3] ∧
    (DynamicPixels.mkStrided stableSort [2, 3] [1, 0] [3, 1]).bind DynamicPixels.pixels =
      .ok [[1, 0], [1, 1], [1, 2], [2, 0], [2, 1], [2, 2]] := by decide

/-- **C03** An empty subdomain (some extent zero, none negative) has no pixels and iteration, if
permitted, visits none. -/
theorem C03_empty {p : DynamicPixels} (hz : nbPixels p.nb = 0) (hc : p.contiguous = true) :
    p.pixels = .ok [] ∧ p.enumerate = .ok [] := by
  have : p.size = 0 := by
    rw [DynamicPixels.size, getSize_eq_prod, ← nbPixels_eq_prod, hz]
  simp [DynamicPixels.pixels, DynamicPixels.enumerate, hc, this, DynamicPixels.forAll]

example : ∃ p, DynamicPixels.mkStrided stableSort [0, 3] [] [1, 0] = .ok p ∧ nbPixels p.nb = 0 ∧
    p.contiguous = true := by
  refine ⟨_, (by decide : _ = Res.ok ⟨[0, 3], [0, 0], [1, 0], [1, 0], true⟩), by decide⟩

/-! ## C04 -/

/-- The strides number the pixels of the grid 0, 1, ..., size-1 without gap or overlap. -/
def NumbersAll (nb strides : List Int) : Prop :=
  (∀ c c', InBox nb c → InBox nb c' → dot strides c = dot strides c' → c = c') ∧
  (∀ i, (0 ≤ i ∧ i < nbPixels nb) ↔ ∃ c, InBox nb c ∧ dot strides c = i)

theorem numbersAll_of_dense {nb strides : List Int} (h : DenseStrides nb strides) :
    NumbersAll nb strides := by
  obtain ⟨hs, bx, hp, hd⟩ := h
  have hinv : ∀ c, InBox nb c → InBox (pick bx nb) (pick bx c) ∧
      dot (pick bx strides) (pick bx c) = dot strides c := by
    intro c hc
    have hl := hc.length_eq
    exact ⟨(inBox_pick hp hl).2 hc, dot_pick (by rw [hs]; exact hp) (by omega)⟩
  constructor
  · intro c c' hc hc' he
    have h1 := hinv c hc
    have h2 := hinv c' hc'
    have := hd.sd.dot_inj h1.1 h2.1 (by rw [h1.2, h2.2, he])
    exact pick_inj (by rw [hc.length_eq]; exact hp) (by rw [hc.length_eq, hc'.length_eq]) this
  · intro i
    rw [nbPixels_eq_prod]
    have hsz := hd.size
    rw [pick_prod hp] at hsz
    constructor
    · rintro ⟨h0, hi⟩
      obtain ⟨c, h1, h2, h3⟩ := getCcoordFromAxesOrder_index (ax := bx.reverse)
        (loc := List.replicate nb.length 0) (reverse_perm hp) hs (by simp)
        (by simpa using hd) h0 hi
      have hl := InBoxAt.lengths h2
      exact ⟨sub c (List.replicate nb.length 0), (inBoxAt_iff hl.1 hl.2).1 h2, h3⟩
    · rintro ⟨c, hc, rfl⟩
      have h1 := hinv c hc
      have := hd.sd.dot_bounds h1.1
      rw [h1.2] at this
      omega

/-- **C04** Soundness: a positive answer means that the strides are those of a dense array in some
order of the axes, and that they number the pixels without gap or overlap. -/
theorem C04_sound {srt : SortFn} (hsrt : SortSpec srt) {nb strides : List Int} (hp : Pos nb)
    (hs : strides.length = nb.length) (h : isBufferContiguous srt nb strides = .ok true) :
    DenseStrides nb strides ∧ NumbersAll nb strides := by
  obtain ⟨b, hb, hiff⟩ := isBufferContiguous_iff hsrt hs hp
  rw [hb] at h
  cases h
  have hds : DenseStrides nb strides :=
    ⟨hs, _, reverse_perm (DynamicPixels.axes_perm hsrt nb strides nb.length), hiff.1 rfl⟩
  exact ⟨hds, numbersAll_of_dense hds⟩

example : isBufferContiguous stableSort [4, 2, 3] [6, 1, 2] = .ok true := by decide

/-- The full claim **C04** (for strides of the right dimension). -/
def C04_statement (srt : SortFn) : Prop :=
  ∀ nb strides : List Int, Pos nb → strides.length = nb.length →
    (isBufferContiguous srt nb strides = .ok true ↔ DenseStrides nb strides)

/-- **C04** is false of the code: the row-major strides of a 5 × 1 × 3 grid are rejected. -/
theorem C04_false : ¬ C04_statement stableSort := by
  intro h
  have h1 := (h [5, 1, 3] [3, 3, 1] (by decide) (by decide)).2
    ⟨by decide, [0, 1, 2], by decide, by simp [pick, Dense, maxIdx]⟩
  revert h1; decide

/-- **C04** Completeness under the condition that, along some dense order of the axes, no axis with a
single point lies between two axes with several points.  What is missing: layouts where this fails,
for which the answer can be wrong (`C04_false`). -/
theorem C04_complete_partial {srt : SortFn} (hsrt : SortSpec srt) {nb strides : List Int}
    (hp : Pos nb) (hs : strides.length = nb.length) {order : List Nat}
    (hperm : order.Perm (List.range nb.length)) (hd : Dense (pick order nb) (pick order strides))
    (hu : NoInnerUnit (pick order nb)) : isBufferContiguous srt nb strides = .ok true := by
  obtain ⟨b, hb, hiff⟩ := isBufferContiguous_iff hsrt hs hp
  have hp2 := DynamicPixels.axes_perm hsrt nb strides nb.length
  have := hiff.2 (dense_of_sorted_convex (perm_range_nodup hperm)
    ((reverse_perm hp2).trans hperm.symm) hd (DynamicPixels.axes_sorted hsrt nb strides nb.length) (by
      intro p b q a r c t he h1 h3
      have hget : ∀ (k : Nat) (x : Nat), order[k]? = some x →
          (pick order nb)[k]? = some (nb[x]?.getD 0) := by
        intro k x hk; simp [pick, hk]
      refine hu p.length (p.length + 1 + q.length) (p.length + 1 + q.length + 1 + r.length)
        _ _ _ (by omega) (by omega) (hget _ b ?_) (hget _ a ?_) (hget _ c ?_) h1 h3
      · rw [he]; simp
      · rw [he, List.getElem?_append_right (by omega),
          show p.length + 1 + q.length - p.length = q.length + 1 by omega]
        simp
      · rw [he, List.getElem?_append_right (by omega),
          show p.length + 1 + q.length + 1 + r.length - p.length = (q.length + (r.length + 1)) + 1
            by omega, List.getElem?_cons_succ, List.getElem?_append_right (by omega)]
        simp))
  rw [hb, this]

example : ([1, 0, 2] : List Nat).Perm (List.range 3) ∧
    Dense (pick [1, 0, 2] [3, 4, 2]) (pick [1, 0, 2] [2, 6, 1]) ∧
    isBufferContiguous stableSort [3, 4, 2] [2, 6, 1] = .ok true := by
  refine ⟨by decide, by simp [pick, Dense, maxIdx], by decide⟩

/-- **C04** Strides of another dimension are rejected (for a non-empty grid). -/
theorem C04_dimension (srt : SortFn) {nb strides : List Int} (hp : Pos nb) (h1 : nb.length ≠ 0)
    (hs : strides.length ≠ nb.length) :
    isBufferContiguous srt nb strides = .throw .runtimeError := by
  have hsz : getSize nb ≠ 0 := by
    rw [getSize_eq_prod]; have := prod_pos_of_pos hp; omega
  simp [isBufferContiguous, h1, hsz, hs]

example : isBufferContiguous stableSort [2, 3] [1] = .throw .runtimeError := by decide

/-! ## C05 -/

theorem bufferSizeAux_ge (acc : Int) (nb ss : List Int) :
    acc ≤ bufferSizeAux acc nb ss ∧
      ∀ k < nb.length, k < ss.length →
        nb[k]?.getD 0 * ss[k]?.getD 0 ≤ bufferSizeAux acc nb ss := by
  induction nb generalizing acc ss with
  | nil => simp [bufferSizeAux]
  | cons n nb ih =>
    cases ss with
    | nil => simp [bufferSizeAux]
    | cons s ss =>
      have := ih (max acc (n * s)) ss
      simp only [bufferSizeAux]
      refine ⟨by omega, ?_⟩
      intro k hk1 hk2
      cases k with
      | zero => simp only [List.getElem?_cons_zero, Option.getD_some]; omega
      | succ k => simpa using this.2 k (by simpa using hk1) (by simpa using hk2)

/-- **C05** For every pixel layout in which, in some order, each stride exceeds all addresses
reachable with faster axes (all dense, padded or transposed layouts), the buffer size is larger than
the index of every pixel. -/
theorem C05_buffer_size {nb strides : List Int} (h : NestedStrides nb strides) (hne : nb ≠ []) :
    ∃ m, getBufferSize nb strides = .ok m ∧
      ∀ c, InBox nb c → 0 ≤ dot strides c ∧ dot strides c < m := by
  obtain ⟨hs, bx, hp, hsd⟩ := h
  refine ⟨bufferSizeAux 0 nb strides, by simp [getBufferSize, hs], ?_⟩
  intro c hc
  have hl := hc.length_eq
  have hb := hsd.dot_bounds ((inBox_pick hp hl).2 hc)
  rw [dot_pick (by rw [hs]; exact hp) (by omega)] at hb
  refine ⟨hb.1, ?_⟩
  cases bx with
  | nil =>
    have := hp.length_eq
    simp at this
    exact absurd (List.length_eq_zero_iff.1 this.symm) hne
  | cons a bx =>
    have hal : a < nb.length := perm_range_lt hp (by simp)
    have hge := (bufferSizeAux_ge 0 nb strides).2 a hal (by omega)
    simp only [pick, List.map_cons, SD, maxIdx] at hsd hb
    have : (nb[a]?.getD 0 - 1) * strides[a]?.getD 0 + strides[a]?.getD 0 =
      nb[a]?.getD 0 * strides[a]?.getD 0 := by ring
    omega

example : NestedStrides [3, 2] [1, 5] ∧ getBufferSize [3, 2] [1, 5] = .ok 10 := by
  refine ⟨⟨by decide, [1, 0], by decide, by simp [pick, SD, maxIdx]⟩, by decide⟩

/-- Pixel strides in general, even positive ones, are not checked by the library: for the strides
(1,1) on a 2 × 2 grid the last pixel lies outside the buffer.  So the restriction of
`C05_buffer_size` to nested strides is needed. -/
theorem C05_unrestricted_false :
    ¬ ∀ nb strides : List Int, Pos nb → Pos strides → strides.length = nb.length →
      ∃ m, getBufferSize nb strides = .ok m ∧ ∀ c, InBox nb c → dot strides c < m := by
  intro h
  obtain ⟨m, h1, h2⟩ := h [2, 2] [1, 1] (by decide) (by decide) (by decide)
  have h1' : getBufferSize [2, 2] [1, 1] = .ok 2 := by decide
  rw [h1'] at h1
  cases h1
  have := h2 [1, 1] (by decide)
  simp [dot] at this

/-! ## C06 -/

/-- **C06** `modulo(a, b)` for positive `b` is the representative of `a` modulo `b` in `[0, b)`. -/
theorem C06_modulo (a b : Int) (hb : 0 < b) :
    ∃ r, modulo a b = .ok r ∧ 0 ≤ r ∧ r < b ∧ ∃ k, a = r + k * b := by
  have hb' : b ≠ 0 := by omega
  refine ⟨Int.tmod (b + Int.tmod a b) b, by simp [modulo, hb'], ?_, ?_, ?_⟩
  · have h1 := Int.tmod_lt_of_pos a hb
    have h2 : -b < Int.tmod a b := by
      have := Int.lt_tmod_of_pos a hb
      omega
    exact Int.tmod_nonneg _ (by omega)
  · exact Int.tmod_lt_of_pos _ hb
  · have h1 := Int.mul_tdiv_add_tmod a b
    have h2 := Int.mul_tdiv_add_tmod (b + Int.tmod a b) b
    refine ⟨Int.tdiv a b + Int.tdiv (b + Int.tmod a b) b - 1, ?_⟩
    linear_combination -h1 - h2

example : modulo (-7) 3 = .ok 2 := by decide

/-- **C06** Wrapping is unchanged by shifts by multiples of the period, and idempotent. -/
theorem C06_periodic (a b k : Int) (hb : 0 < b) : modulo (a + k * b) b = modulo a b := by
  obtain ⟨r, h1, h2, h3, q, h4⟩ := C06_modulo a b hb
  obtain ⟨r', h1', h2', h3', q', h4'⟩ := C06_modulo (a + k * b) b hb
  rw [h1, h1']
  have : r' = r := by
    have h5 : r' - r = (q + k - q') * b := by linear_combination h4 - h4'
    have h6 : q + k - q' = 0 := by
      by_contra hne
      rcases lt_or_gt_of_ne hne with h | h
      · have : (q + k - q') * b ≤ -1 * b := by nlinarith
        omega
      · have : 1 * b ≤ (q + k - q') * b := by nlinarith
        omega
    rw [h6] at h5; omega
  rw [this]

example : modulo (-7 + 5 * 3) 3 = modulo (-7) 3 := C06_periodic (-7) 3 5 (by decide)

theorem C06_idempotent (a b r : Int) (hb : 0 < b) (h : modulo a b = .ok r) :
    modulo r b = .ok r := by
  obtain ⟨r', h1, h2, h3, q, h4⟩ := C06_modulo a b hb
  rw [h1] at h
  cases h
  have := C06_periodic r b q hb
  rw [← h4, h1] at this
  exact this.symm

example : modulo (-7 + 5 * 3) 3 = modulo (-7) 3 ∧ modulo 2 3 = .ok 2 := by decide

/-- **C06** A zero period is undefined behaviour. -/
theorem C06_zero (a : Int) : modulo a 0 = .ub := by simp [modulo]

/-! ## C07 -/

/-- The full claim **C07**: the index returned equals the mathematical index on every grid whose
size fits into `Index_t`. -/
def C07_statement : Prop :=
  ∀ nb loc c : List Int, InBoxAt nb loc c → nbPixels nb ≤ 2 ^ 63 - 1 →
    getIndex32 nb loc c = .ok (colMajorNumber nb loc c)

/-- **C07** is false of the code: on a 65536 × 65536 grid the index of the pixel (0, 32768), 2^31, is
returned as -2^31. -/
theorem C07_false : ¬ C07_statement := by
  intro h
  have := h [65536, 65536] [0, 0] [0, 32768] (by decide) (by decide)
  revert this; decide

/-- **C07** holds for grids of at most 2^31 pixels.  What is missing: larger grids, for which it is
false (`C07_false`). -/
theorem C07_partial {nb loc c : List Int} (h : InBoxAt nb loc c)
    (hs : nbPixels nb ≤ 2 ^ 31) : getIndex32 nb loc c = .ok (colMajorNumber nb loc c) := by
  have hl := InBoxAt.lengths h
  rw [nbPixels_eq_prod] at hs
  have := getIndexAux32_eq h (r := 0) (f := 1) (by norm_num) (by norm_num) (by norm_num)
    (by rw [one_mul]; exact hs)
  simp [getIndex32, hl, this, getIndexAux_eq 0 1 hl.1 hl.2]

example : InBoxAt [65536, 32768] [0, 0] [65535, 32767] ∧ nbPixels [65536, 32768] ≤ 2 ^ 31 ∧
    getIndex32 [65536, 32768] [0, 0] [65535, 32767] = .ok 2147483647 := by decide

end Verif.Props
