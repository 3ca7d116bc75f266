import Verif.Props.Numpy
import Verif.Props.Grid
/-
Which numpy arrays are accepted for wrapping: C61.
-/
namespace Verif.Props
open Verif Verif.Ccoord Verif.Layout Verif.Layout.FieldLayout Verif.RawMemory Verif.Numpy

/-- The last largest element, if the last element is a largest one. -/
theorem lastMax_last : ∀ {l : List Int} {x : Int}, (∀ y ∈ l, y ≤ x) → lastMax (l ++ [x]) = .ok (x, l.length)
  | [], _, _ => rfl
  | [y], x, h => by
      have := h y (by simp)
      simp only [List.cons_append, List.nil_append, lastMax, Res.ok_bind]
      rw [if_neg (by simpa using this)]
      rfl
  | y :: z :: l, x, h => by
      have hy := h y (by simp)
      have ih := lastMax_last (l := z :: l) (x := x) fun w hw => h w (List.mem_cons_of_mem _ hw)
      simp only [List.cons_append] at ih ⊢
      rw [lastMax, ih, Res.ok_bind, if_neg (by simpa using hy)]
      simp

/-- The last largest element, if the first element is larger than all others. -/
theorem lastMax_first : ∀ {l : List Int} {x : Int}, (∀ y ∈ l, y < x) → lastMax (x :: l) = .ok (x, 0)
  | [], _, _ => rfl
  | y :: l, x, h => by
      obtain ⟨m, h1, -, h3⟩ := lastMax_spec (l := y :: l) (by simp)
      rw [lastMax, h1, Res.ok_bind, if_pos (h _ h3)]
      rfl

theorem accStrides_scaled (k : Int) (s : List Int) : accStrides k s = (accStrides 1 s).map (· * k) := by
  rw [← accStrides_mul, one_mul]

theorem accStrides_le {s : List Int} : ∀ {a : Int}, 0 < a → Pos s → ∀ x ∈ accStrides a s, a ≤ x ∧ x ≤ a * s.prod := by
  induction s with
  | nil => intro a _ _ x hx; simp [accStrides] at hx
  | cons n s ih =>
      intro a ha hp x hx
      have hn := (Pos.cons.1 hp).1
      have hs := prod_pos_of_pos (Pos.cons.1 hp).2
      rw [List.prod_cons]
      rcases List.mem_cons.1 hx with rfl | hx
      · exact ⟨le_refl _, by nlinarith [mul_pos hn hs]⟩
      · obtain ⟨h1, h2⟩ := ih (mul_pos ha hn) (Pos.cons.1 hp).2 x hx
        exact ⟨by nlinarith, by rw [← mul_assoc]; exact h2⟩

theorem chain_acc {s : List Int} : ∀ {a : Int}, 0 < a → Pos s → chain (fun x y => decide (x ≤ y)) (accStrides a s) = true := by
  induction s with
  | nil => intro a _ _; rfl
  | cons n s ih =>
      intro a ha hp
      have hn := (Pos.cons.1 hp).1
      have h := ih (mul_pos ha hn) (Pos.cons.1 hp).2
      cases s with
      | nil => rfl
      | cons m s =>
          simp only [accStrides] at h ⊢
          rw [chain, h]
          simp only [Bool.and_true, decide_eq_true_eq]
          nlinarith

theorem chain_tail {le : Int → Int → Bool} : ∀ {s : List Int}, chain le s = true → chain le s.tail = true
  | [], _ => rfl
  | [_], _ => rfl
  | x :: y :: s, h => by
      rw [chain, Bool.and_eq_true] at h
      exact h.2

theorem colMajorStridesAux_eq (a : Int) (s : List Int) : colMajorStridesAux a s = accStrides a s := by
  induction s generalizing a with
  | nil => rfl
  | cons n s ih => simp [colMajorStridesAux, accStrides, ih]

theorem rowMajorStrides_eq (s : List Int) : rowMajorStrides s = cStrides s := by
  induction s with
  | nil => rfl
  | cons n s ih => rw [rowMajorStrides, cStrides_cons, ih, getSize_eq_prod]

theorem contiguous_fortran {s : List Int} (hp : Pos s) : isBufferContiguous stableSort s (accStrides 1 s) = .ok true := by
  have he : colMajorStrides s = accStrides 1 s := colMajorStridesAux_eq 1 s
  obtain ⟨b, hb, hiff⟩ := isBufferContiguous_iff stableSort_spec (accStrides_length 1 s) hp
  rw [hb, hiff.2 (by rw [← he]; exact dense_col_major_stable hp)]

/-- The construction of collection and field succeeds for both orders of the library. -/
theorem makeProxy_ok {srt : SortFn} (hsrt : SortSpec srt) {domain nb loc comps ps : List Int} {nbSub : Int}
    {a : NpArray} {o : StorageOrder} (ho : o = .colMajor ∨ o = .rowMajor) (hd : 0 < getSize domain)
    (hl : loc.length = nb.length) (hnb : nb ≠ []) (hc : Pos comps) (hpn : Pos nb) (hn : 0 < nbSub)
    (hps : ps.length = nb.length) (ha : a.size = comps.prod * nbSub * nb.prod) :
    ∃ nbBuf, makeProxy srt domain nb loc comps nbSub a (o, ps, []) = .ok ⟨⟨o, comps, nbSub, nb, ps, nbBuf⟩, []⟩ := by
  have h1 : ¬ getSize domain ≤ 0 := by omega
  have h2 : ¬ getSize nb < 0 := by
    rw [getSize_eq_prod]; have := prod_pos_of_pos hpn; omega
  have hfl : DynamicPixels.fillLoc nb loc = loc := by
    have : ¬ loc.length = 0 := by
      rw [hl]; exact fun h => hnb (List.length_eq_zero_iff.1 h)
    simp [DynamicPixels.fillLoc, this]
  obtain ⟨b, h3, -⟩ := DynamicPixels.mkStrided_spec hsrt (loc := loc) hpn hps (by rw [hfl, hl])
  refine ⟨bufferSizeAux 0 nb ps, ?_⟩
  have h4 : getBufferSize nb ps = .ok (bufferSizeAux 0 nb ps) := by
    rw [getBufferSize, if_neg (by omega)]
  have hcp := prod_pos_of_pos hc
  rw [makeProxy, if_neg h1, if_neg h2, h3, Res.ok_bind, h4, Res.ok_bind]
  simp only [wrapField]
  generalize bufferSizeAux 0 nb ps = nbBuf
  have h5 : FieldLayout.nbComp ⟨o, comps, nbSub, nb, ps, nbBuf⟩ = comps.prod := nbComp_eq _
  rw [h5, if_neg (by omega)]
  have h6 : ∃ s, Wrapped.strides ⟨⟨o, comps, nbSub, nb, ps, nbBuf⟩, []⟩ .subPt 1 = .ok s ∧
      s.length = comps.length + 1 + nb.length := by
    rcases ho with rfl | rfl
    · refine ⟨_, strides_col ⟨.colMajor, comps, nbSub, nb, ps, nbBuf⟩ rfl, ?_⟩
      simp [accStrides_length, hps]; try omega
    · refine ⟨_, strides_row ⟨.rowMajor, comps, nbSub, nb, ps, nbBuf⟩ rfl, ?_⟩
      simp [accStrides_length, hps]; try omega
  obtain ⟨s, h7, h8⟩ := h6
  rw [h7, Res.ok_bind]
  have h9 : Int.tdiv a.size comps.prod = nbSub * nb.prod := by
    rw [ha, mul_assoc, Int.mul_tdiv_cancel_left _ (by omega)]
  rw [if_neg (by rw [shape_subPt]; simp; omega), h9, if_neg (by rw [ha]; simp [mul_assoc]),
    if_neg (by simp [getSize_eq_prod])]

/-- The order of a Fortran-contiguous array is recognised. -/
theorem detect_fortran {nb cA : List Int} {nbSub : Int} {a : NpArray} (hs : a.shape = cA ++ nb) (hp : Pos a.shape)
    (hi : 0 < a.item) (hf : FortranOrder a) (hnb : nb ≠ []) :
    detectStorageOrder stableSort nb cA nbSub a = .ok (.colMajor, accStrides 1 nb, []) := by
  have hpA : Pos cA := fun n hn => hp n (by rw [hs]; simp [hn])
  have hpn : Pos nb := fun n hn => hp n (by rw [hs]; simp [hn])
  have hcp := prod_pos_of_pos hpA
  have hst : a.strides = accStrides a.item cA ++ accStrides (a.item * cA.prod) nb := by
    rw [hf, hs, accStrides_append]
  have htake : a.strides.take cA.length = accStrides a.item cA := by
    rw [hst]; exact List.take_left' (accStrides_length _ _)
  have hdrop : a.strides.drop (a.shape.length - nb.length) = accStrides (a.item * cA.prod) nb := by
    have : a.shape.length - nb.length = cA.length := by rw [hs]; simp
    rw [this, hst]; exact List.drop_left' (accStrides_length _ _)
  have hpos : 0 < a.item * cA.prod := mul_pos hi hcp
  have hne : accStrides (a.item * cA.prod) nb ≠ [] := by
    cases nb with
    | nil => exact absurd rfl hnb
    | cons _ _ => simp [accStrides]
  have hnorm : ∀ (k : Int) (s : List Int), 0 < k → normalise k (accStrides k s) = accStrides 1 s := by
    intro k s hk
    rw [accStrides_scaled k]
    exact normalise_mul hk
  obtain ⟨pmin, hpm, hpm1, hpm2⟩ := firstMin_spec hne
  have hpmin : pmin.1 = a.item * cA.prod := by
    apply le_antisymm
    · apply hpm1
      cases nb with
      | nil => exact absurd rfl hnb
      | cons _ _ => simp [accStrides]
    · exact (accStrides_le hpos hpn _ hpm2).1
  rw [detectStorageOrder, if_neg (by rw [hs]; simp; omega), htake, hdrop]
  have hguess : guessOrder stableSort nb cA (accStrides a.item cA) (accStrides (a.item * cA.prod) nb) =
      .ok (.colMajor, accStrides 1 cA) := by
    by_cases hcA : cA = []
    · subst hcA; rfl
    · obtain ⟨t, n, rfl⟩ : ∃ t n, cA = t ++ [n] := ⟨_, _, (List.dropLast_append_getLast hcA).symm⟩
      have hpt : Pos t := fun m hm => hpA m (by simp [hm])
      have hn : 0 < n := hpA n (by simp)
      have e1 : accStrides a.item (t ++ [n]) = accStrides a.item t ++ [a.item * t.prod] := by
        rw [accStrides_append]; rfl
      have hmax := lastMax_last (l := accStrides a.item t) (x := a.item * t.prod)
        fun y hy => (accStrides_le hi hpt y hy).2
      have hcne : accStrides a.item (t ++ [n]) ≠ [] := by rw [e1]; simp
      obtain ⟨cmin, hcm, hcm1, hcm2⟩ := firstMin_spec hcne
      have hcmin : cmin.1 = a.item := by
        apply le_antisymm
        · apply hcm1
          cases t <;> simp [accStrides]
        · exact (accStrides_le hi hpA _ hcm2).1
      obtain ⟨pmax, hpM, hpM1, -⟩ := lastMax_spec hne
      have h1 : pmin.1 ≤ pmax.1 := hpM1 _ hpm2
      have htp := prod_pos_of_pos hpt
      rw [guessOrder, if_neg hcne, hcm, Res.ok_bind, hpm, hpM, e1, hmax]
      simp only [Res.ok_bind]
      have horder : pixelsOrder nb (t ++ [n]) cmin (a.item * t.prod, (accStrides a.item t).length) pmin pmax =
          .ok .colMajor := by
        rw [pixelsOrder, if_neg (by
          rw [hcmin, not_lt]
          refine le_trans ?_ h1
          rw [hpmin]; nlinarith), if_pos (by
          rw [hpmin, List.prod_append]
          simp only [List.prod_cons, List.prod_nil, mul_one]
          nlinarith [mul_pos hi htp])]
        have hat : at! (t ++ [n]) (accStrides a.item t).length = .ok n := by
          rw [accStrides_length]
          simp [at!]
        rw [hat, Res.ok_bind, if_pos (by
          rw [hpmin, List.prod_append]
          simp only [List.prod_cons, List.prod_nil, mul_one]; ring)]
        rfl
      rw [horder, Res.ok_bind, ← e1, hcmin, hnorm _ _ hi, contiguous_fortran hpA, Res.ok_bind]
      rfl
  dsimp only
  rw [hguess, Res.ok_bind, hpm, Res.ok_bind, hpmin, hnorm _ _ hpos]
  have hcheck : checkComponents .colMajor (accStrides 1 cA) = .colMajor := by
    rw [checkComponents]
    split
    · rw [if_pos rfl, if_pos (chain_tail (chain_acc (by omega) hpA))]
    · rfl
  simp only [hcheck]
  simp

/-- **C61** Every Fortran-contiguous array with the shape (components, sub-points, grid) is accepted, as
column-major field. -/
theorem C61_fortran {domain nb loc comps : List Int} {nbSub : Int} {a : NpArray}
    (hs : a.shape = comps ++ [nbSub] ++ nb) (hp : Pos a.shape) (hi : 0 < a.item) (hf : FortranOrder a) (hnb : nb ≠ [])
    (hd : 0 < getSize domain) (hl : loc.length = nb.length) :
    ∃ nbBuf, proxySubPt stableSort domain nb loc nbSub comps a =
      .ok ⟨⟨.colMajor, comps, nbSub, nb, accStrides 1 nb, nbBuf⟩, []⟩ := by
  have hpc : Pos comps := fun n hn => hp n (by rw [hs]; simp [hn])
  have hpn : Pos nb := fun n hn => hp n (by rw [hs]; simp [hn])
  have hn : 0 < nbSub := hp nbSub (by rw [hs]; simp)
  rw [proxySubPt, if_pos hs, detect_fortran hs hp hi hf hnb, Res.ok_bind]
  exact makeProxy_ok stableSort_spec (.inl rfl) hd hl hnb hpc hpn hn (accStrides_length _ _) (by
    rw [NpArray.size, getSize_eq_prod, hs]
    simp [mul_assoc])

example : ∃ nbBuf, proxySubPt stableSort [7, 1, 4] [7, 1, 4] [0, 0, 0] 2 [3, 1]
    ⟨[3, 1, 2, 7, 1, 4], accStrides 8 [3, 1, 2, 7, 1, 4], 8⟩ =
      .ok ⟨⟨.colMajor, [3, 1], 2, [7, 1, 4], accStrides 1 [7, 1, 4], nbBuf⟩, []⟩ :=
  C61_fortran rfl (by decide) (by decide) rfl (by decide) (by decide) rfl

/-- **C61** The same for the constructor without an axis for the sub-points, scalar fields included. -/
theorem C61_fortran_pixel {domain nb loc comps : List Int} {a : NpArray}
    (hs : a.shape = comps ++ nb) (hp : Pos a.shape) (hi : 0 < a.item) (hf : FortranOrder a) (hnb : nb ≠ [])
    (hd : 0 < getSize domain) (hl : loc.length = nb.length) :
    ∃ nbBuf, proxyPixel stableSort domain nb loc comps.prod a =
      .ok ⟨⟨.colMajor, comps, 1, nb, accStrides 1 nb, nbBuf⟩, []⟩ := by
  have hpc : Pos comps := fun n hn => hp n (by rw [hs]; simp [hn])
  have hpn : Pos nb := fun n hn => hp n (by rw [hs]; simp [hn])
  have hlen : a.shape.length - nb.length = comps.length := by rw [hs]; simp
  have htake : a.shape.take (a.shape.length - nb.length) = comps := by rw [hlen, hs]; simp
  have hdrop : a.shape.drop (a.shape.length - nb.length) = nb := by rw [hlen, hs]; simp
  rw [proxyPixel, if_neg (by
    rw [NpArray.size, getSize_eq_prod, getSize_eq_prod, hs]; simp [mul_comm]),
    if_neg (by rw [hs]; simp), if_neg (by rw [hdrop]; simp), htake]
  simp only
  rw [if_neg (by rw [getSize_eq_prod]; simp), detect_fortran hs hp hi hf hnb, Res.ok_bind]
  exact makeProxy_ok stableSort_spec (.inl rfl) hd hl hnb hpc hpn (by omega) (accStrides_length _ _) (by
    rw [NpArray.size, getSize_eq_prod, hs]
    simp)

example : ∃ nbBuf, proxyPixel stableSort [7, 4] [7, 4] [0, 0] [].prod ⟨[7, 4], accStrides 8 [7, 4], 8⟩ =
      .ok ⟨⟨.colMajor, [], 1, [7, 4], accStrides 1 [7, 4], nbBuf⟩, []⟩ :=
  C61_fortran_pixel rfl (by decide) (by decide) rfl (by decide) (by decide) rfl

/-! ### Row-major order -/

theorem map_mul_mul (l : List Int) (p i : Int) : (l.map (· * p)).map (· * i) = l.map (· * (p * i)) := by
  rw [List.map_map]
  apply List.map_congr_left
  intro x _
  simp [mul_assoc]

theorem cStrides_le : ∀ {s : List Int}, Pos s → ∀ x ∈ cStrides s, x ≤ s.tail.prod
  | [], _, x, hx => by simp [cStrides, accStrides] at hx
  | n :: s, hp, x, hx => by
      rw [cStrides_cons] at hx
      rcases List.mem_cons.1 hx with rfl | hx
      · exact le_refl _
      · have h1 := cStrides_le (Pos.cons.1 hp).2 x hx
        cases s with
        | nil => simp [cStrides, accStrides] at hx
        | cons m s =>
            have hm := (Pos.cons.1 (Pos.cons.1 hp).2).1
            have hs := prod_pos_of_pos (Pos.cons.1 (Pos.cons.1 hp).2).2
            simp only [List.tail_cons, List.prod_cons] at h1 ⊢
            nlinarith

theorem chain_cStrides : ∀ {s : List Int}, Pos s → chain (fun x y => decide (y ≤ x)) (cStrides s) = true
  | [], _ => rfl
  | [n], _ => rfl
  | n :: m :: s, hp => by
      have h := chain_cStrides (Pos.cons.1 hp).2
      have hm := (Pos.cons.1 (Pos.cons.1 hp).2).1
      have hs := prod_pos_of_pos (Pos.cons.1 (Pos.cons.1 hp).2).2
      rw [cStrides_cons, cStrides_cons] at *
      rw [chain, h]
      rw [Bool.and_true, decide_eq_true_eq, List.prod_cons]
      nlinarith

theorem contiguous_c {srt : SortFn} (hsrt : SortSpec srt) {s : List Int} (hp : Pos s) (hu : NoInnerUnit s) :
    isBufferContiguous srt s (cStrides s) = .ok true := by
  refine C04_complete_partial hsrt hp (cStrides_length s) (order := List.range s.length) (List.Perm.refl _) ?_ ?_
  · rw [pick_range' rfl, pick_range' (cStrides_length s), ← rowMajorStrides_eq]
    exact dense_rowMajor hp
  · rw [pick_range' rfl]; exact hu

/-- The strides of a C-contiguous array. -/
theorem c_strides_split {nb cA : List Int} {a : NpArray} (hs : a.shape = cA ++ nb) (hf : COrder a) :
    a.strides.take cA.length = (cStrides cA).map (· * (nb.prod * a.item)) ∧
      a.strides.drop (a.shape.length - nb.length) = (cStrides nb).map (· * a.item) := by
  have hst : a.strides = (cStrides cA).map (· * (nb.prod * a.item)) ++ (cStrides nb).map (· * a.item) := by
    rw [hf, hs, cStrides_append, List.map_append, map_mul_mul]
  have : a.shape.length - nb.length = cA.length := by rw [hs]; simp
  rw [this, hst]
  exact ⟨List.take_left' (by simp [cStrides_length]), List.drop_left' (by simp [cStrides_length])⟩

/-- The order of a C-contiguous array is recognised if the first two grid axes have several points and no
component axis of extent one lies between longer ones. -/
theorem detect_c {srt : SortFn} (hsrt : SortSpec srt) {cA rest : List Int} {n nbSub : Int} {a : NpArray}
    (hs : a.shape = cA ++ n :: rest) (hp : Pos a.shape) (hi : 0 < a.item) (hf : COrder a) (hcA : cA ≠ [])
    (hu : NoInnerUnit cA) (hn : 1 < n) (hr : rest.head? ≠ some 1) :
    detectStorageOrder srt (n :: rest) cA nbSub a = .ok (.rowMajor, cStrides (n :: rest), []) := by
  have hpA : Pos cA := fun m hm => hp m (by rw [hs]; simp [hm])
  have hpn : Pos (n :: rest) := fun m hm => hp m (by rw [hs]; exact List.mem_append_right _ hm)
  have hpr := (Pos.cons.1 hpn).2
  obtain ⟨htake, hdrop⟩ := c_strides_split hs hf
  have hrp := prod_pos_of_pos hpr
  have hnp := prod_pos_of_pos hpn
  have hk : 0 < (n :: rest).prod * a.item := mul_pos hnp hi
  have hne : ∀ {s : List Int} {k : Int}, s ≠ [] → (cStrides s).map (· * k) ≠ [] := by
    intro s k h1 h2
    have := congrArg List.length h2
    simp [cStrides_length] at this
    exact h1 this
  obtain ⟨pmin, hpm, -, -⟩ := firstMin_spec (hne (k := a.item) (s := n :: rest) (by simp))
  obtain ⟨cmin, hcm, -, -⟩ := firstMin_spec (hne (k := (n :: rest).prod * a.item) hcA)
  obtain ⟨cmax, hcM, -, -⟩ := lastMax_spec (hne (k := (n :: rest).prod * a.item) hcA)
  have hpmin := firstMin_cStrides hi hpn (by simp) hpm
  have hcmin := firstMin_cStrides hk hpA hcA hcm
  have hpM : lastMax ((cStrides (n :: rest)).map (· * a.item)) = .ok (rest.prod * a.item, 0) := by
    rw [cStrides_cons, List.map_cons]
    apply lastMax_first
    intro y hy
    obtain ⟨x, hx, rfl⟩ := List.mem_map.1 hy
    cases rest with
    | nil => simp [cStrides, accStrides] at hx
    | cons m r =>
        have h1 := cStrides_le hpr x hx
        have hm : 1 < m := by
          have := (Pos.cons.1 hpr).1
          have : m ≠ 1 := fun h => hr (by simp [h])
          omega
        have hrr := prod_pos_of_pos (Pos.cons.1 hpr).2
        simp only [List.tail_cons, List.prod_cons] at h1 ⊢
        have : x < m * r.prod := by nlinarith
        nlinarith
  rw [detectStorageOrder, if_neg (by rw [hs]; simp; omega), htake, hdrop]
  have hguess : guessOrder srt (n :: rest) cA ((cStrides cA).map (· * ((n :: rest).prod * a.item)))
      ((cStrides (n :: rest)).map (· * a.item)) = .ok (.rowMajor, cStrides cA) := by
    rw [guessOrder, if_neg (hne hcA), hcm, Res.ok_bind, hcM, Res.ok_bind, hpm, Res.ok_bind, hpM, Res.ok_bind]
    have horder : pixelsOrder (n :: rest) cA cmin cmax pmin (rest.prod * a.item, 0) = .ok .rowMajor := by
      rw [pixelsOrder, if_pos (by
        rw [hcmin, List.prod_cons]
        have := mul_pos hrp hi
        nlinarith)]
      have hat : at! (n :: rest) 0 = .ok n := rfl
      rw [hat, Res.ok_bind, if_pos (by rw [hcmin, List.prod_cons]; ring)]
      rfl
    rw [horder, Res.ok_bind, hcmin, normalise_mul hk, contiguous_c hsrt hpA hu, Res.ok_bind]
    rfl
  dsimp only
  rw [hguess, Res.ok_bind, hpm, Res.ok_bind, hpmin, normalise_mul hi]
  have hcheck : checkComponents .rowMajor (cStrides cA) = .rowMajor := by
    rw [checkComponents]
    split
    · rw [if_neg (by simp), if_pos (chain_tail (chain_cStrides hpA))]
    · rfl
  simp only [hcheck]
  simp

/-- **C61** (part: C-contiguous arrays without troublesome extents of one) Accepted, as row-major field, if the
first two grid axes have several points and no component or sub-point axis of extent one lies between longer ones.
Missing: the other C-contiguous arrays, some of which are rejected (`C61_false`, `C61_rejected`). -/
theorem C61_c_order_partial {srt : SortFn} (hsrt : SortSpec srt) {domain rest loc comps : List Int} {n nbSub : Int}
    {a : NpArray} (hs : a.shape = comps ++ [nbSub] ++ n :: rest) (hp : Pos a.shape) (hi : 0 < a.item)
    (hf : COrder a) (hu : NoInnerUnit (comps ++ [nbSub])) (hn : 1 < n) (hr : rest.head? ≠ some 1)
    (hd : 0 < getSize domain) (hl : loc.length = rest.length + 1) :
    ∃ nbBuf, proxySubPt srt domain (n :: rest) loc nbSub comps a =
      .ok ⟨⟨.rowMajor, comps, nbSub, n :: rest, cStrides (n :: rest), nbBuf⟩, []⟩ := by
  have hpc : Pos comps := fun m hm => hp m (by rw [hs]; simp [hm])
  have hpn : Pos (n :: rest) := fun m hm => hp m (by rw [hs]; exact List.mem_append_right _ hm)
  have hns : 0 < nbSub := hp nbSub (by rw [hs]; simp)
  rw [proxySubPt, if_pos hs, detect_c hsrt hs hp hi hf (by simp) hu hn hr, Res.ok_bind]
  exact makeProxy_ok hsrt (.inr rfl) hd (by simpa using hl) (by simp) hpc hpn hns (cStrides_length _) (by
    rw [NpArray.size, getSize_eq_prod, hs]
    simp [mul_assoc])

example : ∃ nbBuf, proxySubPt stableSort [7, 3, 1] [7, 3, 1] [0, 0, 0] 2 [3, 3]
    ⟨[3, 3, 2, 7, 3, 1], (cStrides [3, 3, 2, 7, 3, 1]).map (· * 8), 8⟩ =
      .ok ⟨⟨.rowMajor, [3, 3], 2, [7, 3, 1], cStrides [7, 3, 1], nbBuf⟩, []⟩ :=
  C61_c_order_partial stableSort_spec rfl (by decide) (by decide) rfl (by
    intro i j k x y z h1 h2 hx hy hz _ _
    have hk : k < 3 := by
      have := (List.getElem?_eq_some_iff.1 hz).1
      simpa using this
    have : i = 0 ∧ j = 1 := by omega
    obtain ⟨rfl, rfl⟩ := this
    simp at hy; omega) (by decide) (by decide) (by decide) rfl

/-- The index found by `lastMax` is that of the last largest element. -/
theorem lastMax_index : ∀ {l : List Int} {m : Int × Nat}, lastMax l = .ok m →
    l[m.2]? = some m.1 ∧ ∀ j x, m.2 < j → l[j]? = some x → x < m.1
  | [x], m, h => by
      cases h
      refine ⟨rfl, ?_⟩
      intro j x hj hx
      have := (List.getElem?_eq_some_iff.1 hx).1
      simp at this; omega
  | x :: y :: l, m, h => by
      rw [lastMax] at h
      obtain ⟨m', h1, h⟩ := Res.bind_eq_ok.1 h
      obtain ⟨ih1, ih2⟩ := lastMax_index h1
      split at h
      · next hlt =>
          cases h
          refine ⟨rfl, ?_⟩
          intro j z hj hz
          obtain ⟨j, rfl⟩ : ∃ i, j = i + 1 := ⟨j - 1, by simp at hj; omega⟩
          have hmem : z ∈ y :: l := List.mem_of_getElem? (by simpa using hz)
          obtain ⟨m2, k1, k2, -⟩ := lastMax_spec (l := y :: l) (by simp)
          rw [k1] at h1
          cases h1
          exact lt_of_le_of_lt (k2 z hmem) hlt
      · cases h
        refine ⟨by simpa using ih1, ?_⟩
        intro j z hj hz
        obtain ⟨j, rfl⟩ : ∃ i, j = i + 1 := ⟨j - 1, by simp at hj; omega⟩
        exact ih2 j z (by simp at hj; exact hj) (by simpa using hz)

theorem cStrides_get : ∀ {s : List Int} {k : Nat}, k < s.length → (cStrides s)[k]? = some (s.drop (k + 1)).prod
  | [], k, h => by simp at h
  | n :: s, 0, _ => by rw [cStrides_cons]; simp
  | n :: s, k + 1, h => by
      rw [cStrides_cons]
      simpa using cStrides_get (s := s) (k := k) (by simpa using h)

/-- If the products of all and of the last extents agree, the first extents are one. -/
theorem prod_drop : ∀ {s : List Int} {k : Nat} {x : Int}, Pos s → (s.drop (k + 1)).prod = s.prod →
    s[k]? = some x → x = 1
  | n :: s, 0, x, hp, h, hx => by
      have hs := prod_pos_of_pos (Pos.cons.1 hp).2
      simp only [List.getElem?_cons_zero, Option.some.injEq] at hx
      simp only [zero_add, List.drop_succ_cons, List.drop_zero, List.prod_cons] at h
      subst hx
      have h2 : (n - 1) * s.prod = 0 := by linarith
      rcases mul_eq_zero.1 h2 with h3 | h3 <;> omega
  | n :: s, k + 1, x, hp, h, hx => by
      have hn := (Pos.cons.1 hp).1
      have hs := prod_pos_of_pos (Pos.cons.1 hp).2
      have hge : (s.drop (k + 1)).prod ≤ s.prod := by
        have h1 : s.prod = (s.take (k + 1)).prod * (s.drop (k + 1)).prod := by
          rw [← List.prod_append, List.take_append_drop]
        have h2 : 0 < (s.take (k + 1)).prod :=
          prod_pos_of_pos fun m hm => (Pos.cons.1 hp).2 m (List.mem_of_mem_take hm)
        have h3 : 0 < (s.drop (k + 1)).prod :=
          prod_pos_of_pos fun m hm => (Pos.cons.1 hp).2 m (List.mem_of_mem_drop hm)
        nlinarith
      simp only [List.drop_succ_cons, List.prod_cons] at h
      have hn1 : n * s.prod ≤ s.prod := by rw [← h]; exact hge
      have : n = 1 := by nlinarith
      subst this
      rw [one_mul] at h
      exact prod_drop (Pos.cons.1 hp).2 h (by simpa using hx)

/-- **C61** C-contiguous arrays with several sub-points are always rejected if the first or second grid axis has
a single point. -/
theorem C61_rejected {srt : SortFn} (hsrt : SortSpec srt) {domain rest loc comps : List Int} {n nbSub : Int}
    {a : NpArray} (hs : a.shape = comps ++ [nbSub] ++ n :: rest) (hp : Pos a.shape) (hi : 0 < a.item)
    (hf : COrder a) (hm : 1 < nbSub) (h1 : n = 1 ∨ rest.head? = some 1) :
    proxySubPt srt domain (n :: rest) loc nbSub comps a = .throw .numpyError := by
  have hpA : Pos (comps ++ [nbSub]) := fun m hm => hp m (by rw [hs]; exact List.mem_append_left _ hm)
  have hpn : Pos (n :: rest) := fun m hm => hp m (by rw [hs]; exact List.mem_append_right _ hm)
  have hpr := (Pos.cons.1 hpn).2
  have hn0 := (Pos.cons.1 hpn).1
  obtain ⟨htake, hdrop⟩ := c_strides_split hs hf
  have hrp := prod_pos_of_pos hpr
  have hnp := prod_pos_of_pos hpn
  have hk : 0 < (n :: rest).prod * a.item := mul_pos hnp hi
  have hne : ∀ {s : List Int} {k : Int}, s ≠ [] → (cStrides s).map (· * k) ≠ [] := by
    intro s k h1 h2
    have := congrArg List.length h2
    simp [cStrides_length] at this
    exact h1 this
  have hcA : comps ++ [nbSub] ≠ [] := by simp
  obtain ⟨pmin, hpm, -, -⟩ := firstMin_spec (hne (k := a.item) (s := n :: rest) (by simp))
  obtain ⟨pmax, hpM, hpM1, hpM2⟩ := lastMax_spec (hne (k := a.item) (s := n :: rest) (by simp))
  obtain ⟨cmin, hcm, -, -⟩ := firstMin_spec (hne (k := (n :: rest).prod * a.item) hcA)
  obtain ⟨cmax, hcM, hcM1, hcM2⟩ := lastMax_spec (hne (k := (n :: rest).prod * a.item) hcA)
  have hpmin := firstMin_cStrides hi hpn (by simp) hpm
  have hcmin := firstMin_cStrides hk hpA hcA hcm
  have hpmax : pmax.1 = rest.prod * a.item := by
    apply le_antisymm
    · obtain ⟨x, hx, hx'⟩ := List.mem_map.1 hpM2
      have := cStrides_le hpn x hx
      rw [← hx']
      simp only [List.tail_cons] at this
      nlinarith
    · apply hpM1
      rw [cStrides_cons]; simp
  obtain ⟨hidx, hlast⟩ := lastMax_index hpM
  obtain ⟨hcidx, -⟩ := lastMax_index hcM
  have horder : pixelsOrder (n :: rest) (comps ++ [nbSub]) cmin cmax pmin pmax = .ok .unknown := by
    rw [pixelsOrder]
    by_cases hlt : pmax.1 < cmin.1
    · rw [if_pos hlt]
      rw [hpmax, hcmin, List.prod_cons] at hlt
      have hn1 : n ≠ 1 := by
        rintro rfl
        rw [one_mul] at hlt
        exact lt_irrefl _ hlt
      have hr1 : rest.head? = some 1 := by
        rcases h1 with h1 | h1
        · exact absurd h1 hn1
        · exact h1
      -- the largest stride found is that of an axis with one point
      have hlen : pmax.2 < (n :: rest).length := by
        have := (List.getElem?_eq_some_iff.1 hidx).1
        simpa [cStrides_length] using this
      have hk1 : pmax.2 ≠ 0 := by
        intro h0
        cases rest with
        | nil => simp at hr1
        | cons m r =>
            simp only [List.head?_cons, Option.some.injEq] at hr1
            subst hr1
            have := hlast 1 (r.prod * a.item) (by omega) (by
              rw [cStrides_cons, cStrides_cons]; simp)
            rw [hpmax, List.prod_cons, one_mul] at this
            exact lt_irrefl _ this
      obtain ⟨k, hk'⟩ : ∃ k, pmax.2 = k + 1 := ⟨pmax.2 - 1, by omega⟩
      have hget : at! (n :: rest) pmax.2 = .ok 1 := by
        have h2 : (cStrides (n :: rest))[pmax.2]? = some ((n :: rest).drop (pmax.2 + 1)).prod := cStrides_get hlen
        rw [List.getElem?_map, h2] at hidx
        simp only [Option.map_some, Option.some.injEq] at hidx
        rw [hpmax, hk'] at hidx
        have h3 : (rest.drop (k + 1)).prod = rest.prod := by
          have := mul_right_cancel₀ (by omega : a.item ≠ 0) hidx
          simpa using this
        have hkl : k < rest.length := by simp [hk'] at hlen; exact hlen
        have h4 := prod_drop hpr h3 (List.getElem?_eq_getElem hkl)
        have h5 : k + 1 < (n :: rest).length := by simpa using hkl
        rw [hk', at!_eq_ok h5]
        simpa using h4
      rw [hget, Res.ok_bind, if_neg (by
        rw [hcmin, hpmax, List.prod_cons]
        intro h
        rw [one_mul] at h
        have : (n - 1) * (rest.prod * a.item) = 0 := by linarith
        rcases mul_eq_zero.1 this with h5 | h5
        · omega
        · have := mul_pos hrp hi; omega)]
      rfl
    · rw [if_neg hlt]
      by_cases hle : cmax.1 ≤ pmin.1
      · rw [if_pos hle]
        -- then the grid and all but the first component axis have one point
        have hcomps : comps = [] := by
          cases hcomp : comps with
          | nil => rfl
          | cons c cs =>
              exfalso
              rw [hcomp] at hcM1 hpA
              have h5 := hcM1 ((cs ++ [nbSub]).prod * ((n :: rest).prod * a.item)) (by
                rw [List.cons_append, cStrides_cons]; simp)
              have h6 : 0 < cs.prod := prod_pos_of_pos fun m hm => hpA m (by simp [hm])
              rw [List.prod_append] at h5
              simp only [List.prod_cons, List.prod_nil, mul_one] at h5 hnp
              rw [hpmin] at hle
              have h7 : 1 < cs.prod * nbSub := by nlinarith
              have h8 : a.item < cs.prod * nbSub * (n * rest.prod * a.item) := by
                have h9 := mul_pos hnp hi
                have h10 : a.item ≤ n * rest.prod * a.item := by nlinarith
                nlinarith
              omega
        subst hcomps
        have hc1 : cStrides ([] ++ [nbSub]) = [1] := by simp [cStrides, accStrides]
        rw [hc1] at hcM
        simp only [List.map_cons, List.map_nil, lastMax] at hcM
        cases hcM
        have hat : at! ([] ++ [nbSub]) 0 = .ok nbSub := rfl
        rw [hat, Res.ok_bind, if_neg (by
          rw [hpmin]
          simp only [one_mul]
          have : a.item ≤ (n :: rest).prod * a.item := by nlinarith
          nlinarith)]
        rfl
      · rw [if_neg hle]
  rw [proxySubPt, if_pos hs, detectStorageOrder, if_neg (by rw [hs]; simp; omega), htake, hdrop]
  obtain ⟨b, hb, -⟩ := isBufferContiguous_iff hsrt (cStrides_length (comps ++ [nbSub])) hpA
  have hguess : guessOrder srt (n :: rest) (comps ++ [nbSub])
      ((cStrides (comps ++ [nbSub])).map (· * ((n :: rest).prod * a.item)))
      ((cStrides (n :: rest)).map (· * a.item)) = .ok (.unknown, cStrides (comps ++ [nbSub])) := by
    rw [guessOrder, if_neg (hne hcA), hcm, Res.ok_bind, hcM, Res.ok_bind, hpm, Res.ok_bind, hpM, Res.ok_bind,
      horder, Res.ok_bind, hcmin, normalise_mul hk, hb, Res.ok_bind]
    cases b <;> rfl
  dsimp only
  rw [hguess, Res.ok_bind, hpm, Res.ok_bind]
  have hcheck : checkComponents .unknown (cStrides (comps ++ [nbSub])) = .unknown := by
    rcases checkComponents_spec .unknown (cStrides (comps ++ [nbSub])) with h | h <;> exact h
  simp only [hcheck]
  rw [if_pos ⟨hm, trivial⟩]
  rfl

example : proxySubPt stableSort [8, 1] [8, 1] [0, 0] 2 [3] ⟨[3, 2, 8, 1], (cStrides [3, 2, 8, 1]).map (· * 8), 8⟩ =
    .throw .numpyError :=
  C61_rejected stableSort_spec rfl (by decide) (by decide) rfl (by decide) (by decide)

/-- The full statement of C61. -/
def C61_statement : Prop :=
  ∀ (domain nb loc comps : List Int) (nbSub : Int) (a : NpArray), a.shape = comps ++ [nbSub] ++ nb → Pos a.shape →
    0 < a.item → (COrder a ∨ FortranOrder a) → nb ≠ [] → 0 < getSize domain → loc.length = nb.length →
    ∃ w, proxySubPt stableSort domain nb loc nbSub comps a = .ok w

/-- **C61** is false: `numpy.zeros((3, 2, 8, 1))` cannot be wrapped as vector field with two sub-points on a grid of
8 × 1 pixels. -/
theorem C61_false : ¬ C61_statement := by
  intro h
  obtain ⟨w, hw⟩ := h [8, 1] [8, 1] [0, 0] [3] 2 ⟨[3, 2, 8, 1], (cStrides [3, 2, 8, 1]).map (· * 8), 8⟩ rfl (by decide)
    (by decide) (.inl rfl) (by decide) (by decide) rfl
  have h2 : proxySubPt stableSort [8, 1] [8, 1] [0, 0] 2 [3] ⟨[3, 2, 8, 1], (cStrides [3, 2, 8, 1]).map (· * 8), 8⟩ =
      .throw .numpyError :=
    C61_rejected stableSort_spec rfl (by decide) (by decide) rfl (by decide) (by decide)
  rw [h2] at hw
  cases hw

end Verif.Props
