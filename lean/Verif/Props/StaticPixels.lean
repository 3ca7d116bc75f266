import Verif.Lemmas.Tiling
import Verif.Model.StaticPixels
import Verif.Model.Collection
/-
Property C75: statically dimensioned pixel sets, and the pixel set of a collection which is not
initialised.
-/
namespace Verif.Props
open Verif Verif.Ccoord

/-- An iteration visits every pixel of the grid once and nothing else. -/
def VisitsAll (nb loc : List Int) (r : Res (List (List Int))) : Prop :=
  ∃ L, r = .ok L ∧ L.Nodup ∧ ∀ c, c ∈ L ↔ InBoxAt nb loc c

/-- The full claim **C75**: whatever positive strides a pixel set is made with, iteration over it through
its statically dimensioned view visits every pixel once. -/
def C75_statement (srt : SortFn) : Prop :=
  ∀ nb loc strides : List Int, Pos nb → Pos strides → loc.length = nb.length → strides.length = nb.length →
    1 ≤ nb.length → nb.length ≤ 3 →
    ∃ p q, DynamicPixels.mkStrided srt nb loc strides = .ok p ∧ p.dimensioned nb.length = .ok q ∧
      VisitsAll nb loc q.staticPixels

/-- **C75** is false of the code: with the padded strides 1, 4 of a 3 × 2 grid the static iteration, unlike the
dynamic one, is not refused; it visits (3,0), which is outside the grid, and misses (2,1). -/
theorem C75_false : ¬ C75_statement stableSort := by
  intro h
  obtain ⟨p, q, hp, hq, L, hL, -, hm⟩ := h [3, 2] [0, 0] [1, 4] (by decide) (by decide) (by decide) (by decide)
    (by decide) (by decide)
  have hp' : DynamicPixels.mkStrided stableSort [3, 2] [0, 0] [1, 4] =
      .ok ⟨[3, 2], [0, 0], [1, 4], [0, 1], false⟩ := by decide
  rw [hp'] at hp
  cases hp
  have hq' : DynamicPixels.dimensioned ⟨[3, 2], [0, 0], [1, 4], [0, 1], false⟩ 2 =
      .ok ⟨[3, 2], [0, 0], [1, 4], [0, 1], false⟩ := by decide
  rw [show ([3, 2] : List Int).length = 2 from rfl, hq'] at hq
  cases hq
  have hL' : DynamicPixels.staticPixels ⟨[3, 2], [0, 0], [1, 4], [0, 1], false⟩ =
      .ok [[0, 0], [1, 0], [2, 0], [3, 0], [0, 1], [1, 1]] := by decide
  rw [hL'] at hL
  cases hL
  exact absurd ((hm [3, 0]).1 (by decide)) (by decide)

/-- **C75**, the part which holds: if the dynamic iteration is permitted, the view of the right dimension
visits the same pixels in the same order, every pixel of the grid once, and pixel `k` is the one with index
`k`.  What is missing: strides with gaps, see `C75_false` and `C75_exact`. -/
theorem C75_same_partial {srt : SortFn} (hsrt : SortSpec srt) {nb loc strides : List Int} {p : DynamicPixels}
    (hp : Pos nb) (h : DynamicPixels.mkStrided srt nb loc strides = .ok p)
    (hit : p.pixels ≠ .throw .runtimeError) :
    ∃ q L, p.dimensioned nb.length = .ok q ∧ q.staticPixels = .ok L ∧ p.pixels = .ok L ∧
      CompleteIteration p p.nb p.loc L := by
  obtain ⟨L, E, h1, h2, h3, -⟩ := C03_iteration hsrt hp h hit
  refine ⟨p, L, by simp [DynamicPixels.dimensioned, h3], ?_, h1, h2⟩
  rw [DynamicPixels.pixels] at h1 hit
  split at h1
  · exact h1
  · cases h1

example : ∃ p, DynamicPixels.mkStrided stableSort [2, 3] [1, 0] [3, 1] = .ok p ∧
    p.staticPixels = .ok [[1, 0], [1, 1], [1, 2], [2, 0], [2, 1], [2, 2]] :=
  ⟨⟨[2, 3], [1, 0], [3, 1], [1, 0], true⟩, by decide, by decide⟩

/-- **C75** A view of another dimension is refused. -/
theorem C75_dimension (p : DynamicPixels) (d : Nat) :
    p.dimensioned d = (if d = p.nb.length then .ok p else .throw .runtimeError) := by
  by_cases h : d = p.nb.length <;> simp [DynamicPixels.dimensioned, h]

/-- **C75** A `Pixels<Dim>` made directly is the pixel set made with dynamic coordinates: the constructor with
default strides always succeeds and the other one agrees wherever the dimensions do. -/
theorem C75_construct (srt : SortFn) {nb loc : List Int}
    (h1 : 1 ≤ nb.length) (h3 : nb.length ≤ 3) (hl : loc.length = nb.length) :
    (∃ p, DynamicPixels.mkStatic srt nb loc = .ok p ∧ DynamicPixels.mkDefault srt nb loc = .ok p ∧
      p.nb = nb ∧ p.loc = loc) ∧
    ∀ strides : List Int, strides.length = nb.length →
      DynamicPixels.mkStaticStrided srt nb loc strides = DynamicPixels.mkStrided srt nb loc strides := by
  have hf : DynamicPixels.fillLoc nb loc = loc := by
    rw [DynamicPixels.fillLoc, if_neg (by omega)]
  constructor
  · have hlen : (colMajorStrides nb).length = nb.length := by
      have : ∀ (l : List Int) (a : Int), (colMajorStridesAux a l).length = l.length := by
        intro l
        induction l with
        | nil => intro a; rfl
        | cons x l ih => intro a; simp [colMajorStridesAux, ih]
      exact this nb 1
    have hd : dynColMajorStrides nb = .ok (colMajorStrides nb) := by
      rw [dynColMajorStrides, if_pos (by omega)]
    refine ⟨⟨nb, loc, colMajorStrides nb, srt (axesLt nb (colMajorStrides nb)) (List.range nb.length), true⟩,
      ?_, ?_, rfl, rfl⟩
    · simp [DynamicPixels.mkStatic, computeAxesOrder, hlen]
    · simp [DynamicPixels.mkDefault, computeAxesOrder, hlen, hd, hf, hl]
  · intro strides hs
    simp [DynamicPixels.mkStaticStrided, DynamicPixels.mkStrided, hf, hs, hl]

example : DynamicPixels.mkStatic stableSort [3, 2] [4, 5] = .ok ⟨[3, 2], [4, 5], [1, 3], [0, 1], true⟩ := by decide

/-- The rest of successive divisions by positive strides is smaller than the last one. -/
theorem digits_rest {ss : List Int} (hs : Pos ss) {i : Int} (h0 : 0 ≤ i) :
    ∃ r, 0 ≤ r ∧ dot ss (digits ss i) + r = i ∧ ∀ s, ss.getLast? = some s → r < s := by
  induction ss generalizing i with
  | nil => exact ⟨i, h0, by simp [dot], by simp⟩
  | cons s ss ih =>
    have hsp := Pos.cons.1 hs
    have e := Int.mul_tdiv_add_tmod i s
    have hm := Int.tmod_nonneg s h0
    have hlt := Int.tmod_lt_of_pos i hsp.1
    have e2 : i - Int.tdiv i s * s = Int.tmod i s := by rw [mul_comm]; omega
    obtain ⟨r, r0, r1, r2⟩ := ih hsp.2 (i := Int.tmod i s) hm
    refine ⟨r, r0, ?_, ?_⟩
    · simp only [digits, dot, e2]; linarith
    · intro t ht
      cases ss with
      | nil =>
        simp at ht; subst ht
        simp [dot] at r1; omega
      | cons => exact r2 t (by simpa using ht)

/-- All digits of a number below all strides are zero. -/
theorem digits_small {ss : List Int} {i : Int} (h0 : 0 ≤ i) (h : ∀ s ∈ ss, i < s) :
    digits ss i = List.replicate ss.length 0 := by
  induction ss with
  | nil => rfl
  | cons s ss ih =>
    have : Int.tdiv i s = 0 := Int.tdiv_eq_zero_of_lt h0 (h s (by simp))
    simp [digits, this, List.replicate_succ, ih (fun t ht => h t (by simp [ht]))]

/-- **C75** exactly, for grids with several points along every axis, any positive strides and any sort: the
static iteration visits every pixel once if and only if the dynamic iteration is permitted. -/
theorem C75_exact {srt : SortFn} (hsrt : SortSpec srt) {nb loc strides : List Int} {p : DynamicPixels}
    (hp : ∀ n ∈ nb, 2 ≤ n) (hst : Pos strides) (hl : loc.length = nb.length)
    (h : DynamicPixels.mkStrided srt nb loc strides = .ok p) :
    VisitsAll nb loc p.staticPixels ↔ p.pixels ≠ .throw .runtimeError := by
  have hpos : Pos nb := fun m hm => by have := hp m hm; omega
  obtain ⟨hs, -, h3, h4, h5, h6, h7⟩ := DynamicPixels.mkStrided_inv hsrt hpos h
  have hloc : p.loc = loc := by
    rw [h4, DynamicPixels.fillLoc]
    split
    · rename_i h0
      have : loc = [] := List.length_eq_zero_iff.1 h0
      subst this
      have : nb = [] := List.length_eq_zero_iff.1 (by simpa using hl.symm)
      subst this; rfl
    · rfl
  constructor
  · rintro ⟨L, hL, hnd, hm⟩
    have hc : p.contiguous = true := by
      rw [h7, h6]
      apply dense_of_numbersAll hsrt hp hs
      have hperm := DynamicPixels.axes_perm hsrt nb strides nb.length
      rw [← h6] at hperm
      have hrp := reverse_perm hperm
      have hsorted := DynamicPixels.axes_sorted hsrt nb strides nb.length
      rw [← h6] at hsorted
      have hal : p.axes.reverse.length = nb.length := by simpa using hrp.length_eq
      have hpst : Pos (pick p.axes.reverse strides) := pick_pos (by rw [hs]; exact hrp) hst
      -- the coordinate of every index
      have hcoord : ∀ i : Int, ∃ r, p.getCcoord i = .ok (List.zipWith (· + ·) r loc) ∧ r.length = nb.length ∧
          pick p.axes.reverse r = digits (pick p.axes.reverse strides) i := by
        intro i
        obtain ⟨r, hr1, hr2, -, hr4⟩ := ccoordLoop_spec (strides := strides) (as := p.axes.reverse)
          (perm_range_nodup hrp) (index := i) (r := List.replicate nb.length 0)
          (fun a ha => by rw [hs]; exact perm_range_lt hrp ha)
          (fun a ha => by rw [List.length_replicate]; exact perm_range_lt hrp ha)
          (fun a ha => by
            have hal := perm_range_lt hrp ha
            have : 0 < strides[a]?.getD 0 := by
              rw [List.getElem?_eq_getElem (by omega), Option.getD_some]
              exact hst _ (List.getElem_mem _)
            omega)
        refine ⟨r, ?_, by simpa using hr2, hr4⟩
        rw [DynamicPixels.getCcoord, getCcoordFromAxesOrder, h3, h5, hr1, hloc]
        rfl
      choose r hr1 hr2 hr3 using hcoord
      have hLeq : L = (List.range p.size.toNat).map (fun i : Nat => List.zipWith (· + ·) (r i) loc) := by
        rw [DynamicPixels.staticPixels, DynamicPixels.forAll_ok
          (g := fun i : Nat => List.zipWith (· + ·) (r i) loc) (fun i _ => hr1 i)] at hL
        cases hL; rfl
      have hsz : p.size = nb.prod := by rw [DynamicPixels.size, h3, getSize_eq_prod]
      have hNpos : 0 < nb.prod := prod_pos_of_pos hpos
      have hinj : ∀ i j : Nat, i < p.size.toNat → j < p.size.toNat → r i = r j → i = j := by
        intro i j hi hj hij
        rw [hLeq, List.nodup_map_iff_inj_on List.nodup_range] at hnd
        exact hnd i (List.mem_range.2 hi) j (List.mem_range.2 hj) (by simp [hij])
      -- the index of the coordinate of an index
      have hdot : ∀ i : Nat, i < p.size.toNat → dot strides (r i) = i := by
        intro i hi
        obtain ⟨q, q0, q1, q2⟩ := digits_rest hpst (i := (i : Int)) (by omega)
        rw [← hr3, dot_pick (by rw [hs]; exact hrp) (by rw [hs, hr2])] at q1
        suffices q = 0 by omega
        by_cases hne : pick p.axes.reverse strides = []
        · have hnb : nb = [] := by
            have := congrArg List.length hne
            simp only [pick, List.length_map, List.length_nil] at this
            exact List.length_eq_zero_iff.1 (by omega)
          subst hnb
          simp at hsz
          have hst0 : strides = [] := List.length_eq_zero_iff.1 (by simpa using hs)
          subst hst0
          simp [dot] at q1
          omega
        · obtain ⟨s, hs'⟩ : ∃ s, (pick p.axes.reverse strides).getLast? = some s :=
            ⟨_, List.getLast?_eq_some_getLast hne⟩
          have hq := q2 s hs'
          -- the last stride is the smallest
          have hmin : ∀ t ∈ pick p.axes.reverse strides, s ≤ t := by
            intro t ht
            obtain ⟨pre, hpre⟩ := List.getLast?_eq_some_iff.1 hs'
            have hpw : (pick p.axes.reverse strides).Pairwise (fun a b => b ≤ a) := by
              rw [pick, List.pairwise_map]
              refine hsorted.imp ?_
              intro a b hab
              rw [axesLt_false_iff] at hab
              omega
            rw [hpre] at hpw ht
            rcases List.mem_append.1 ht with h' | h'
            · exact (List.pairwise_append.1 hpw).2.2 t h' s (by simp)
            · simp at h'; omega
          by_cases h1 : s = 1
          · omega
          · exfalso
            have hs1 : 0 < s := hpst s (List.mem_of_getLast? hs')
            have hN : 2 ≤ nb.prod := by
              cases nb with
              | nil => exact absurd (List.length_eq_zero_iff.1 hal) (fun e => hne (by simp [pick, e]))
              | cons n nb =>
                have := hp n (by simp)
                have : 0 < nb.prod := prod_pos_of_pos (fun m hm => by have := hp m (by simp [hm]); omega)
                rw [List.prod_cons]; nlinarith
            have e0 := hr3 0
            have e1 := hr3 1
            rw [digits_small (by omega) (fun t ht => by have := hmin t ht; omega)] at e0 e1
            have : r 0 = r 1 := pick_inj (ax := p.axes.reverse) (by rw [hr2]; exact hrp) (by rw [hr2, hr2]) (by rw [e0, e1])
            have := hinj 0 1 (by omega) (by omega) (by simpa using this)
            omega
      have hex : ∀ c, InBox nb c → ∃ i : Nat, i < p.size.toNat ∧ r i = c := by
        intro c hc
        have hcl := hc.length_eq
        have hb : InBoxAt nb loc (List.zipWith (· + ·) c loc) := by
          rw [inBoxAt_iff hl (by simp [hcl, hl]), add_sub' (by omega)]
          exact hc
        rw [← hm, hLeq, List.mem_map] at hb
        obtain ⟨i, hi, he⟩ := hb
        refine ⟨i, List.mem_range.1 hi, ?_⟩
        have := congrArg (fun x => sub x loc) he
        simpa [add_sub' (show (r i).length = loc.length by rw [hr2, hl]),
          add_sub' (show c.length = loc.length by omega)] using this
      have hbox : ∀ i : Nat, i < p.size.toNat → InBox nb (r i) := by
        intro i hi
        have : List.zipWith (· + ·) (r i) loc ∈ L := by
          rw [hLeq]; exact List.mem_map.2 ⟨i, List.mem_range.2 hi, rfl⟩
        rw [hm, inBoxAt_iff hl (by simp [hr2, hl]), add_sub' (by rw [hr2, hl])] at this
        exact this
      constructor
      · intro c c' hc hc' he
        obtain ⟨i, hi, rfl⟩ := hex c hc
        obtain ⟨j, hj, rfl⟩ := hex c' hc'
        rw [hdot i hi, hdot j hj] at he
        have : i = j := by omega
        rw [this]
      · intro i
        rw [nbPixels_eq_prod]
        constructor
        · rintro ⟨h0, hi⟩
          obtain ⟨k, rfl⟩ := Int.eq_ofNat_of_zero_le h0
          exact ⟨r k, hbox k (by omega), hdot k (by omega)⟩
        · rintro ⟨c, hc, rfl⟩
          obtain ⟨i, hi, rfl⟩ := hex c hc
          rw [hdot i hi]; omega
    rw [DynamicPixels.pixels, if_pos hc]
    rw [DynamicPixels.staticPixels] at hL
    rw [hL]
    simp
  · intro hit
    obtain ⟨q, L, hq, h1, -, h2⟩ := C75_same_partial hsrt hpos h hit
    rw [DynamicPixels.dimensioned, if_neg (by simp [h3])] at hq
    cases hq
    exact ⟨L, h1, h2.nodup, by rw [← h3, ← hloc]; exact h2.mem_iff⟩

example : (∀ n ∈ ([3, 2] : List Int), 2 ≤ n) ∧ Pos [1, 4] ∧
    (DynamicPixels.mkStrided stableSort [3, 2] [0, 0] [1, 4]).bind DynamicPixels.pixels = .throw .runtimeError ∧
    (DynamicPixels.mkStrided stableSort [3, 2] [0, 0] [1, 4]).bind DynamicPixels.staticPixels =
      .ok [[0, 0], [1, 0], [2, 0], [3, 0], [0, 1], [1, 1]] := by decide

/-- **C75** The pixel set of a collection which is not initialised reports one pixel, but any iteration over it is
refused. -/
theorem C75_unset {α U : Type} (global : Bool) (dim : Int) (order : Layout.StorageOrder) (subPts : SMap String Int) :
    (Collection.Coll.empty (α := α) (U := U) global dim order subPts).pixels.size = 1 ∧
    (Collection.Coll.empty (α := α) (U := U) global dim order subPts).pixels.pixels = .throw .runtimeError ∧
    (Collection.Coll.empty (α := α) (U := U) global dim order subPts).pixels.enumerate = .throw .runtimeError :=
  ⟨rfl, rfl, rfl⟩

end Verif.Props
