import Verif.Lemmas.Numpy
import Verif.Props.Layout
import Verif.Props.RawMemory
/-
Properties of the exchange with numpy: C40, C41, C60.
-/
namespace Verif.Props
open Verif Verif.Ccoord Verif.Layout Verif.Layout.FieldLayout Verif.RawMemory Verif.Numpy

/-! ## C40 -/

/-- Every element of the field is the array element with the same index tuple: component `c`, sub-point `s`,
pixel `p`.  `sub` tells whether the array has an axis for the sub-points.  (Offsets in bytes.) -/
def Shows (w : Wrapped) (a : NpArray) (sub : Bool) : Prop :=
  ∃ fs, w.strides .subPt 1 = .ok fs ∧
    ∀ (c : List Int) (s : Int) (p : List Int), InBox w.layout.comps c → 0 ≤ s → s < w.layout.nbSub →
      InBox w.layout.pixShape p → a.item * dot fs (c ++ s :: p) = dot a.strides (c ++ (if sub then [s] else []) ++ p)

/-- The array has been accepted by one of the two constructors, as a field with components `comps` and `nbSub`
sub-points on the grid `nb`. -/
inductive Accepted (srt : SortFn) (nb : List Int) (comps : List Int) (nbSub : Int) (a : NpArray) :
    Bool → Wrapped → Prop
  | pixel {domain loc : List Int} {nbDof : Int} {w : Wrapped} : comps = a.shape.take (a.shape.length - nb.length) →
      nbSub = 1 → proxyPixel srt domain nb loc nbDof a = .ok w → Accepted srt nb comps nbSub a false w
  | subPt {domain loc : List Int} {w : Wrapped} : proxySubPt srt domain nb loc nbSub comps a = .ok w →
      Accepted srt nb comps nbSub a (decide (a.shape = comps ++ [nbSub] ++ nb)) w

/-- The full statement of C40. -/
def C40_statement (srt : SortFn) : Prop :=
  ∀ nb comps nbSub a sub w, Pos a.shape → 0 < a.item → a.strides.length = a.shape.length →
    (∀ s ∈ a.strides, a.item ∣ s) → Accepted srt nb comps nbSub a sub w → Shows w a sub

/-- **C40** is false: every second element of an array (`a[::2]`) is wrapped as a scalar field with the stride
of consecutive elements. -/
theorem C40_false : ¬ C40_statement stableSort := by
  intro h
  have hw : proxyPixel stableSort [3] [3] [0] 1 ⟨[3], [16], 8⟩ = .ok ⟨⟨.colMajor, [], 1, [3], [1], 3⟩, []⟩ := by decide
  obtain ⟨fs, h1, h2⟩ := h [3] [] 1 ⟨[3], [16], 8⟩ false _ (by decide) (by decide) (by decide) (by decide)
    (.pixel (by decide) rfl hw)
  have h3 : Wrapped.strides ⟨⟨.colMajor, [], 1, [3], [1], 3⟩, []⟩ .subPt 1 = .ok [1, 1] := by decide
  rw [h3] at h1
  cases h1
  exact absurd (h2 [] 0 [1] (by decide) (by decide) (by decide) (by decide)) (by decide)

/-- **C40** also fails for arrays with two component axes in row-major order before pixels in column-major
order, e.g. `numpy.zeros((4, 2, 3)).transpose(1, 2, 0)`: the components come out transposed. -/
theorem C40_false_components : ∃ w,
    proxySubPt stableSort [4] [4] [0] 1 [2, 3] ⟨[2, 3, 4], [24, 8, 48], 8⟩ = .ok w ∧
      ¬ Shows w ⟨[2, 3, 4], [24, 8, 48], 8⟩ false := by
  refine ⟨⟨⟨.colMajor, [2, 3], 1, [4], [1], 4⟩, []⟩, by decide, ?_⟩
  rintro ⟨fs, h1, h2⟩
  have h3 : Wrapped.strides ⟨⟨.colMajor, [2, 3], 1, [4], [1], 4⟩, []⟩ .subPt 1 = .ok [1, 2, 6, 6] := by decide
  rw [h3] at h1
  cases h1
  exact absurd (h2 [1, 0] 0 [0] (by decide) (by decide) (by decide) (by decide)) (by decide)

/-- What acceptance means, for both constructors. -/
structure Parts (srt : SortFn) (nb comps : List Int) (nbSub : Int) (a : NpArray) (sub : Bool) (w : Wrapped)
    (cA : List Int) (det : StorageOrder × List Int × List Int) (nbBuf : Int) : Prop where
  axes : cA = comps ++ if sub then [nbSub] else []
  single : sub = false → nbSub = 1
  shape : a.shape = cA ++ nb
  detect : detectStorageOrder srt nb cA nbSub a = .ok det
  buffer : getBufferSize nb det.2.1 = .ok nbBuf
  wrapped : w = ⟨⟨det.1, comps, nbSub, nb, det.2.1, nbBuf⟩, det.2.2⟩
  strides : ∃ s, w.strides .subPt 1 = .ok s ∧ s.length = comps.length + 1 + nb.length

theorem accepted_parts {srt : SortFn} {nb comps : List Int} {nbSub : Int} {a : NpArray} {sub : Bool} {w : Wrapped}
    (h : Accepted srt nb comps nbSub a sub w) : ∃ cA det nbBuf, Parts srt nb comps nbSub a sub w cA det nbBuf := by
  cases h with
  | pixel hc h1 h =>
      unfold proxyPixel at h
      split at h
      · simp at h
      split at h
      · simp at h
      split at h
      · simp at h
      next hd =>
      dsimp only at h
      split at h
      · simp at h
      obtain ⟨det, hdet, h⟩ := Res.bind_eq_ok.1 h
      rw [← hc] at hdet h
      subst h1
      obtain ⟨nbBuf, h2, h3, h4⟩ := makeProxy_spec h
      refine ⟨comps, det, nbBuf, by simp, fun _ => rfl, ?_, hdet, h2, h3, h4⟩
      have := List.take_append_drop (a.shape.length - nb.length) a.shape
      rw [Decidable.of_not_not hd, ← hc] at this
      exact this.symm
  | subPt h =>
      unfold proxySubPt at h
      split at h
      · next hs =>
          obtain ⟨det, hdet, h⟩ := Res.bind_eq_ok.1 h
          obtain ⟨nbBuf, h2, h3, h4⟩ := makeProxy_spec h
          exact ⟨comps ++ [nbSub], det, nbBuf, by simp [hs], by simp [hs], hs, hdet, h2, h3, h4⟩
      · next hs =>
          split at h
          · next h1 =>
              obtain ⟨det, hdet, h⟩ := Res.bind_eq_ok.1 h
              obtain ⟨nbBuf, h2, h3, h4⟩ := makeProxy_spec h
              refine ⟨comps, det, nbBuf, ?_, fun _ => h1.1, h1.2, hdet, h2, h3, h4⟩
              rw [decide_eq_false hs]; simp
          · simp at h

theorem dot_zero_middle {cs ps c p : List Int} {s : Int} (h : c.length = cs.length) :
    dot (cs ++ [0] ++ ps) (c ++ s :: p) = dot cs c + dot ps p := by
  rw [List.append_assoc, dot_append h]
  simp [dot]

/-- **C40** (part: arrays in none of the orders of the library) Any accepted array that is not taken to be in one
of the two orders of the library is read correctly, whatever its strides: slices, transposes, negative
strides. -/
theorem C40_unknown_partial {srt : SortFn} {nb comps : List Int} {nbSub : Int} {a : NpArray} {sub : Bool}
    {w : Wrapped} (hst : a.strides.length = a.shape.length) (hd : ∀ s ∈ a.strides, a.item ∣ s)
    (h : Accepted srt nb comps nbSub a sub w) (ho : w.layout.order = .unknown) : Shows w a sub := by
  obtain ⟨cA, det, nbBuf, P⟩ := accepted_parts h
  obtain ⟨cs, ps, sm, hs, hcl, hpl, hne, hsm, hps, hcase⟩ := detect_spec P.shape hst P.detect
  have hw := P.wrapped
  rw [hw] at ho
  have ho' : det.1 = .unknown := ho
  rcases hcase with ⟨-, hcA, hn, hcus⟩ | ⟨h1, -⟩ | ⟨h1, -⟩
  · obtain ⟨fs, hfs, hlen⟩ := P.strides
    refine ⟨fs, hfs, ?_⟩
    intro c s p hc hs0 hs1 hp
    have hfs' : fs = det.2.2 := by
      rw [hw] at hfs
      unfold Wrapped.strides at hfs
      have : det.2.2.length > 0 := by
        rw [hcus]
        have := List.length_pos_of_ne_nil hne
        simp
        omega
      dsimp only at hfs
      rw [if_pos this] at hfs
      exact (Res.ok.inj hfs).symm
    subst hfs'
    rw [hw] at hc hs1 hp
    have hs1' : s < nbSub := hs1
    have hn1 : nbSub = 1 := by omega
    cases sub with
    | true =>
        -- the additional token stride makes the number of strides wrong: not accepted
        exfalso
        have := P.axes
        rw [hcus] at hlen
        simp [hcA, hn1, hcl, hpl] at hlen
        rw [this] at hlen
        simp at hlen
    | false =>
        have hax : cA = comps := by simpa using P.axes
        rw [hcus, if_pos ⟨hcA, hn1⟩]
        have hcl' : c.length = cs.length := by rw [hc.length_eq, hcl, hax]
        rw [dot_zero_middle (by simpa using hcl'), mul_add, hs]
        have hd1 : ∀ x ∈ cs, a.item ∣ x := fun x hx => hd x (by rw [hs]; simp [hx])
        have hd2 : ∀ x ∈ ps, a.item ∣ x := fun x hx => hd x (by rw [hs]; simp [hx])
        rw [tdiv_map _ hd1, tdiv_map _ hd2]
        simp [dot_append hcl']
  · rw [h1] at ho'; cases ho'
  · rw [h1] at ho'; cases ho'

/-- A transposed slice: strides of any kind are kept if the order is not one of the library's. -/
example : ∃ w, Accepted stableSort [4, 2] [3] 1 ⟨[3, 4, 2], [8, 96, -24], 8⟩ false w ∧ w.layout.order = .unknown ∧
    w.custom = [1, 0, 12, -3] :=
  ⟨_, .pixel (domain := [4, 2]) (loc := [0, 0]) (nbDof := 3) (by decide) rfl (by decide : _ = Res.ok
    ⟨⟨.unknown, [3], 1, [4, 2], [96, -24], 384⟩, [1, 0, 12, -3]⟩), rfl, rfl⟩

/-- A new array of numpy in column-major ("Fortran") order. -/
def FortranOrder (a : NpArray) : Prop := a.strides = accStrides a.item a.shape

/-- A new array of numpy in row-major ("C") order. -/
def COrder (a : NpArray) : Prop := a.strides = (cStrides a.shape).map (· * a.item)

theorem accStrides_ge : ∀ {s : List Int} {k : Int}, 0 < k → Pos s → ∀ x ∈ accStrides k s, k ≤ x
  | n :: s, k, hk, hp, x, hx => by
      rcases List.mem_cons.1 hx with rfl | hx
      · exact le_refl _
      · have hn := (Pos.cons.1 hp).1
        have h1 : k ≤ k * n := by nlinarith
        exact h1.trans (accStrides_ge (by omega) (Pos.cons.1 hp).2 x hx)

theorem firstMin_acc {s : List Int} {k : Int} (hk : 0 < k) (hp : Pos s) (hne : s ≠ []) {m : Int × Nat}
    (h : firstMin (accStrides k s) = .ok m) : m.1 = k := by
  obtain ⟨n, s', rfl⟩ := List.exists_cons_of_ne_nil hne
  obtain ⟨m', h1, h2, h3⟩ := firstMin_spec (l := accStrides k (n :: s')) (by simp [accStrides])
  rw [h1] at h
  cases h
  exact le_antisymm (h2 k (by simp [accStrides])) (accStrides_ge hk hp _ h3)

theorem normalise_mul {l : List Int} {k : Int} (hk : 0 < k) : normalise k (l.map (· * k)) = l := by
  rw [normalise, if_pos hk, List.map_map]
  conv_rhs => rw [← List.map_id l]
  apply List.map_congr_left
  intro x _
  simp only [Function.comp, id]
  exact Int.mul_tdiv_cancel x (by omega)

theorem accStrides_scale (k : Int) (s : List Int) : accStrides k s = (accStrides 1 s).map (· * k) := by
  rw [← accStrides_mul, one_mul]

/-- **C40** (part: arrays in column-major order) Every accepted array in column-major order is read correctly. -/
theorem C40_fortran_partial {srt : SortFn} {nb comps : List Int} {nbSub : Int} {a : NpArray} {sub : Bool}
    {w : Wrapped} (hp : Pos a.shape) (hi : 0 < a.item) (hf : FortranOrder a)
    (h : Accepted srt nb comps nbSub a sub w) : Shows w a sub := by
  have hst : a.strides.length = a.shape.length := by rw [hf, accStrides_length]
  obtain ⟨cA, det, nbBuf, P⟩ := accepted_parts h
  obtain ⟨cs, ps, sm, hs, hcl, hpl, hne, hsm, hps, hcase⟩ := detect_spec P.shape hst P.detect
  have hw := P.wrapped
  have hpA : Pos cA := fun n hn => hp n (by rw [P.shape]; simp [hn])
  have hpn : Pos nb := fun n hn => hp n (by rw [P.shape]; simp [hn])
  have hP := prod_pos_of_pos hpA
  -- the strides of the two parts
  have hsplit : cs = accStrides a.item cA ∧ ps = accStrides (a.item * cA.prod) nb := by
    have h1 : cs ++ ps = accStrides a.item cA ++ accStrides (a.item * cA.prod) nb := by
      rw [← hs, hf, P.shape, accStrides_append]
    exact List.append_inj h1 (by rw [hcl, accStrides_length])
  have hnb : nb ≠ [] := by
    rintro rfl
    exact hne (List.length_eq_zero_iff.1 hpl)
  have hk : 0 < a.item * cA.prod := Int.mul_pos hi hP
  rcases hcase with ⟨h1, -⟩ | ⟨h1, h2, hcA, h3⟩ | ⟨h1, h2, h3⟩
  · apply C40_unknown_partial hst _ h (by rw [hw]; exact h1)
    intro x hx
    rw [hf, accStrides_scale] at hx
    obtain ⟨y, -, rfl⟩ := List.mem_map.1 hx
    exact Int.dvd_mul_left ..
  · -- not taken for row-major order: the first component stride is the smallest
    exfalso
    obtain ⟨n, cA', rfl⟩ := List.exists_cons_of_ne_nil hcA
    obtain ⟨m, nb', rfl⟩ := List.exists_cons_of_ne_nil hnb
    have := h3 a.item (by rw [hsplit.1]; simp [accStrides]) (a.item * (n :: cA').prod)
      (by rw [hsplit.2]; simp [accStrides])
    have : a.item * 1 ≤ a.item * (n :: cA').prod := by
      apply Int.mul_le_mul_of_nonneg_left <;> omega
    omega
  · rw [hsplit.2] at hsm
    have hsm' := firstMin_acc hk hpn hnb hsm
    have hpix : det.2.1 = accStrides 1 nb := by
      rw [hps, hsm', hsplit.2, accStrides_scale, normalise_mul hk]
    subst hw
    have hstr : Wrapped.strides ⟨⟨det.1, comps, nbSub, nb, det.2.1, nbBuf⟩, det.2.2⟩ .subPt 1 =
        .ok ((accStrides 1 comps ++ [1].map (· * comps.prod)) ++
          (accStrides 1 nb).map (· * (comps.prod * nbSub))) := by
      unfold Wrapped.strides
      dsimp only
      rw [h2, if_neg (by simp), hpix]
      exact strides_col _ h1
    refine ⟨_, hstr, ?_⟩
    intro c s p hc hs0 hs1 hpp
    have hc' : c.length = comps.length := hc.length_eq
    rw [hf, P.shape, accStrides_append, accStrides_scale a.item, accStrides_scale (a.item * cA.prod), P.axes]
    rw [List.append_assoc, dot_append (by rw [accStrides_length]; exact hc')]
    cases sub with
    | true =>
        have hl : (c ++ if true = true then [s] else []).length =
            (List.map (fun x => x * a.item) (accStrides 1 (comps ++ if true = true then [nbSub] else []))).length := by
          simp [accStrides_length, hc']
        rw [dot_append hl, dot_map_mul, dot_map_mul]
        simp only [if_true, accStrides_append]
        rw [dot_append (by rw [accStrides_length]; exact hc')]
        simp [dot, dot_map_mul, accStrides]
        ring
    | false =>
        have hn1 : nbSub = 1 := P.single rfl
        have hs : s = 0 := by have : s < nbSub := hs1; omega
        have hl : (c ++ if false = true then [s] else []).length =
            (List.map (fun x => x * a.item) (accStrides 1 (comps ++ if false = true then [nbSub] else []))).length := by
          simp [accStrides_length, hc']
        rw [dot_append hl, dot_map_mul, dot_map_mul]
        simp [dot, dot_map_mul, hs, hn1]
        ring

/-- The strain of a grid with two quadrature points in column-major order. -/
example : ∃ w, Accepted stableSort [4, 5] [3, 3] 2 ⟨[3, 3, 2, 4, 5], accStrides 8 [3, 3, 2, 4, 5], 8⟩ true w ∧
    Shows w ⟨[3, 3, 2, 4, 5], accStrides 8 [3, 3, 2, 4, 5], 8⟩ true := by
  have h : Accepted stableSort [4, 5] [3, 3] 2 ⟨[3, 3, 2, 4, 5], accStrides 8 [3, 3, 2, 4, 5], 8⟩ true
      ⟨⟨.colMajor, [3, 3], 2, [4, 5], [1, 4], 20⟩, []⟩ :=
    .subPt (domain := [8, 5]) (loc := [4, 0]) (by decide +kernel)
  exact ⟨_, h, C40_fortran_partial (by decide) (by decide) rfl h⟩

theorem cStrides_ge : ∀ {s : List Int}, Pos s → ∀ x ∈ cStrides s, 1 ≤ x
  | [], _, x, hx => by simp [cStrides, accStrides] at hx
  | n :: s, hp, x, hx => by
      rw [cStrides_cons] at hx
      rcases List.mem_cons.1 hx with rfl | hx
      · exact prod_pos_of_pos (Pos.cons.1 hp).2
      · exact cStrides_ge (Pos.cons.1 hp).2 x hx

theorem one_mem_cStrides : ∀ {s : List Int}, s ≠ [] → (1 : Int) ∈ cStrides s
  | [n], _ => by simp [cStrides_cons]
  | n :: m :: s, _ => by
      rw [cStrides_cons]
      exact List.mem_cons_of_mem _ (one_mem_cStrides (by simp))

theorem firstMin_cStrides {s : List Int} {k : Int} (hk : 0 < k) (hp : Pos s) (hne : s ≠ []) {m : Int × Nat}
    (h : firstMin ((cStrides s).map (· * k)) = .ok m) : m.1 = k := by
  have h0 : (cStrides s).map (· * k) ≠ [] := by
    intro h0
    have := congrArg List.length h0
    simp [cStrides_length] at this
    exact hne this
  obtain ⟨m', h1, h2, h3⟩ := firstMin_spec h0
  rw [h1] at h
  cases h
  apply le_antisymm
  · exact h2 k (List.mem_map.2 ⟨1, one_mem_cStrides hne, by ring⟩)
  · obtain ⟨y, hy, hy'⟩ := List.mem_map.1 h3
    have := cStrides_ge hp y hy
    rw [← hy']
    nlinarith

theorem bufferSize_cStrides : ∀ {s : List Int} (acc : Int), Pos s → s ≠ [] →
    bufferSizeAux acc s (cStrides s) = max acc s.prod
  | [n], acc, _, _ => by simp [cStrides_cons, bufferSizeAux]
  | n :: m :: s, acc, hp, _ => by
      have h1 := (Pos.cons.1 hp).1
      have h2 := (Pos.cons.1 hp).2
      have h3 := prod_pos_of_pos h2
      rw [cStrides_cons, bufferSizeAux, bufferSize_cStrides _ h2 (by simp), List.prod_cons (a := n)]
      rw [max_assoc, max_eq_left (a := n * (m :: s).prod)]
      nlinarith

/-- In a box with one element, every offset is zero. -/
theorem dot_unit : ∀ {t r : List Int} (x : List Int), Pos t → t.prod = 1 → InBox t r → dot x r = 0
  | [], [], x, _, _, _ => by cases x <;> rfl
  | n :: t, c :: r, x, hp, h1, hb => by
      have hn := (Pos.cons.1 hp).1
      have ht := prod_pos_of_pos (Pos.cons.1 hp).2
      rw [List.prod_cons] at h1
      have hn1 : n = 1 := by nlinarith
      have ht1 : t.prod = 1 := by rw [hn1] at h1; omega
      obtain ⟨h2, h3, h4⟩ := hb
      have hc : c = 0 := by omega
      cases x with
      | nil => rfl
      | cons y x => rw [dot, dot_unit x (Pos.cons.1 hp).2 ht1 h4, hc]; ring

/-- **C40** (part: arrays in row-major order) Every accepted array in row-major order is read correctly. -/
theorem C40_c_order_partial {srt : SortFn} {nb comps : List Int} {nbSub : Int} {a : NpArray} {sub : Bool}
    {w : Wrapped} (hp : Pos a.shape) (hi : 0 < a.item) (hf : COrder a)
    (h : Accepted srt nb comps nbSub a sub w) : Shows w a sub := by
  have hst : a.strides.length = a.shape.length := by rw [hf, List.length_map, cStrides_length]
  obtain ⟨cA, det, nbBuf, P⟩ := accepted_parts h
  obtain ⟨cs, ps, sm, hs, hcl, hpl, hne, hsm, hps, hcase⟩ := detect_spec P.shape hst P.detect
  have hw := P.wrapped
  have hpA : Pos cA := fun n hn => hp n (by rw [P.shape]; simp [hn])
  have hpn : Pos nb := fun n hn => hp n (by rw [P.shape]; simp [hn])
  have hnb : nb ≠ [] := by
    rintro rfl
    exact hne (List.length_eq_zero_iff.1 hpl)
  have hsplit : cs = ((cStrides cA).map (· * nb.prod)).map (· * a.item) ∧ ps = (cStrides nb).map (· * a.item) := by
    have h1 : cs ++ ps = ((cStrides cA).map (· * nb.prod)).map (· * a.item) ++ (cStrides nb).map (· * a.item) := by
      rw [← hs, hf, P.shape, cStrides_append, List.map_append]
    exact List.append_inj h1 (by simp [hcl, cStrides_length])
  rw [hsplit.2] at hsm
  have hsm' := firstMin_cStrides hi hpn hnb hsm
  have hpix : det.2.1 = cStrides nb := by rw [hps, hsm', hsplit.2, normalise_mul hi]
  have hbuf : nbBuf = nb.prod := by
    have h1 := P.buffer
    rw [hpix, getBufferSize, if_neg (by simp [cStrides_length]), bufferSize_cStrides 0 hpn hnb] at h1
    have := prod_pos_of_pos hpn
    rw [← Res.ok.inj h1, max_eq_right (by omega)]
  have hsing := P.single
  have haxes := P.axes
  have hshape := P.shape
  rcases hcase with ⟨h1, -⟩ | ⟨h1, h2, hcA, h3⟩ | ⟨h1, h2, h3⟩
  · apply C40_unknown_partial hst _ h (by rw [hw]; exact h1)
    intro x hx
    rw [hf] at hx
    obtain ⟨y, -, rfl⟩ := List.mem_map.1 hx
    exact Int.dvd_mul_left ..
  · subst hw
    have hstr : Wrapped.strides ⟨⟨det.1, comps, nbSub, nb, det.2.1, nbBuf⟩, det.2.2⟩ .subPt 1 =
        .ok (((cStrides comps).map (· * nbSub) ++ [1]).map (· * nb.prod) ++ cStrides nb) := by
      unfold Wrapped.strides
      dsimp only
      rw [h2, if_neg (by simp), hpix, hbuf]
      exact strides_row _ h1
    refine ⟨_, hstr, ?_⟩
    intro c s p hc hs0 hs1 hpp
    have hc' : c.length = comps.length := hc.length_eq
    have hl1 : (c ++ [s]).length = (((cStrides comps).map (· * nbSub) ++ [1]).map (· * nb.prod)).length := by
      simp [cStrides_length, hc']
    have e1 : c ++ s :: p = (c ++ [s]) ++ p := by simp
    have hl2 : c.length = ((cStrides comps).map (· * nbSub)).length := by simp [cStrides_length, hc']
    rw [e1, dot_append hl1, dot_map_mul, dot_append hl2, dot_map_mul, hf, hshape, cStrides_append, haxes,
      dot_map_mul]
    cases sub with
    | true =>
        have e2 : cStrides (comps ++ [nbSub]) = (cStrides comps).map (· * nbSub) ++ [1] := by
          rw [cStrides_append]; simp [cStrides, accStrides]
        simp only [if_true]
        rw [e2, dot_append hl1, dot_map_mul, dot_append hl2, dot_map_mul]
    | false =>
        have hn1 : nbSub = 1 := hsing rfl
        have hs : s = 0 := by have : s < nbSub := hs1; omega
        have hl3 : c.length = ((cStrides comps).map (· * nb.prod)).length := by simp [cStrides_length, hc']
        simp only [Bool.false_eq_true, if_false, List.append_nil]
        rw [dot_append hl3, dot_map_mul, hs, hn1]
        simp [dot]
  · subst hw
    have hstr : Wrapped.strides ⟨⟨det.1, comps, nbSub, nb, det.2.1, nbBuf⟩, det.2.2⟩ .subPt 1 =
        .ok ((accStrides 1 comps ++ [1].map (· * comps.prod)) ++ (cStrides nb).map (· * (comps.prod * nbSub))) := by
      unfold Wrapped.strides
      dsimp only
      rw [h2, if_neg (by simp), hpix]
      exact strides_col _ h1
    refine ⟨_, hstr, ?_⟩
    intro c s p hc hs0 hs1 hpp
    by_cases hcA : cA = []
    · -- a scalar field
      rw [haxes] at hcA
      obtain ⟨hc1, hc2⟩ := List.append_eq_nil_iff.1 hcA
      have hsf : sub = false := by
        cases sub with
        | false => rfl
        | true => simp at hc2
      subst hsf hc1
      have hn1 : nbSub = 1 := hsing rfl
      have hs : s = 0 := by have : s < nbSub := hs1; omega
      cases c with
      | cons _ _ => exact absurd hc (by simp [InBox])
      | nil =>
          rw [hf, hshape, haxes, dot_map_mul]
          simp [accStrides, dot, hs, hn1]
    · -- all extents but the first are one
      obtain ⟨n, t, rfl⟩ := List.exists_cons_of_ne_nil hcA
      have ht : (t ++ nb).prod = 1 := by
        have h5 := h3 (t.prod * nb.prod * a.item) (by rw [hsplit.1, cStrides_cons]; simp) a.item
          (by rw [hsplit.2]; exact List.mem_map.2 ⟨1, one_mem_cStrides hnb, by ring⟩)
        have h6 : 0 < (t ++ nb).prod := prod_pos_of_pos fun m hm => by
          rcases List.mem_append.1 hm with hm | hm
          · exact hpA m (List.mem_cons_of_mem _ hm)
          · exact hpn m hm
        rw [List.prod_append] at h6 ⊢
        nlinarith
      have hpt : Pos (t ++ nb) := fun m hm => by
        rcases List.mem_append.1 hm with hm | hm
        · exact hpA m (List.mem_cons_of_mem _ hm)
        · exact hpn m hm
      rw [hf, hshape, dot_map_mul, List.cons_append, cStrides_cons, ht]
      -- the index tuples
      cases comps with
      | nil =>
          have hsub : sub = true := by
            cases sub with
            | true => rfl
            | false => simp at haxes
          subst hsub
          simp only [if_true, List.nil_append, List.cons.injEq] at haxes
          obtain ⟨rfl, rfl⟩ := haxes
          cases c with
          | cons _ _ => exact absurd hc (by simp [InBox])
          | nil =>
              have hb : InBox nb p := hpp
              have hpu : nb.prod = 1 := by simpa using ht
              simp only [accStrides, List.nil_append, List.map_cons, List.map_nil, List.prod_nil, mul_one,
                List.cons_append, if_true, dot]
              rw [dot_unit _ hpn hpu hb, dot_unit _ hpn hpu hb]
      | cons n' comps' =>
          have hnt : n = n' ∧ t = comps' ++ if sub then [nbSub] else [] := by simpa using haxes
          obtain ⟨rfl, rfl⟩ := hnt
          cases c with
          | nil => exact absurd hc (by simp [InBox])
          | cons i c =>
              obtain ⟨hi0, hi1, hc2⟩ := hc
              have hlong : InBox (comps' ++ nbSub :: nb) (c ++ s :: p) :=
                inBox_append.2 ⟨c, s :: p, rfl, hc2, hs0, hs1, hpp⟩
              have hu : (comps' ++ nbSub :: nb).prod = 1 ∧ Pos (comps' ++ nbSub :: nb) := by
                cases sub with
                | true => exact ⟨by simpa using ht, by simpa using hpt⟩
                | false =>
                    have hn1 : nbSub = 1 := hsing rfl
                    refine ⟨by simpa [hn1] using ht, ?_⟩
                    intro m hm
                    rcases List.mem_append.1 hm with hm | hm
                    · exact hpt m (by simp [hm])
                    · rcases List.mem_cons.1 hm with rfl | hm
                      · omega
                      · exact hpn m hm
              have hshort : InBox ((comps' ++ if sub then [nbSub] else []) ++ nb)
                  ((c ++ if sub then [s] else []) ++ p) := by
                cases sub with
                | true => simpa using hlong
                | false => simpa using inBox_append.2 ⟨c, p, rfl, hc2, hpp⟩
              simp only [accStrides, List.cons_append, dot]
              rw [dot_unit _ hu.2 hu.1 hlong, dot_unit _ hpt ht hshort]

/-- The strain of a grid with two quadrature points in row-major order. -/
example : ∃ w, Accepted stableSort [4, 5] [3, 3] 2 ⟨[3, 3, 2, 4, 5], (cStrides [3, 3, 2, 4, 5]).map (· * 8), 8⟩ true w ∧
    Shows w ⟨[3, 3, 2, 4, 5], (cStrides [3, 3, 2, 4, 5]).map (· * 8), 8⟩ true := by
  have h : Accepted stableSort [4, 5] [3, 3] 2 ⟨[3, 3, 2, 4, 5], (cStrides [3, 3, 2, 4, 5]).map (· * 8), 8⟩ true
      ⟨⟨.rowMajor, [3, 3], 2, [4, 5], [5, 1], 20⟩, []⟩ :=
    .subPt (domain := [8, 5]) (loc := [4, 0]) (by decide +kernel)
  exact ⟨_, h, C40_c_order_partial (by decide) (by decide) rfl h⟩

/-! ## C41 -/

/-- The array holds at the tuple `t` (counted in row-major order) what the field holds at its offset `fs · t`. -/
def CopyOf {α : Type} (shape fs : List Int) (src out : Mem α) : Prop :=
  ∀ t, InBox shape t → (src (dot fs t)).isSome ∧
    out (rowMajorNumber shape (List.replicate shape.length 0) t) = src (dot fs t)

theorem dot_cStrides : ∀ (shape t : List Int), t.length = shape.length →
    dot (cStrides shape) t = rowMajorNumber shape (List.replicate shape.length 0) t
  | [], [], _ => rfl
  | n :: shape, c :: t, h => by
      rw [cStrides_cons, dot, dot_cStrides shape t (by simpa using h), List.length_cons, List.replicate_succ,
        rowMajorNumber, nbPixels_eq_prod]
      ring

theorem numpyCopy_spec {α : Type} {srt : SortFn} (hsrt : SortSpec srt) (w : Wrapped) (it : IterUnit)
    {fs : List Int} {src fresh : Mem α} (hs : w.strides it 1 = .ok fs) (hl : fs.length = (w.layout.shape it).length)
    (hp : Pos (w.layout.shape it)) (hne : w.layout.shape it ≠ [])
    (hsrc : ∀ t, InBox (w.layout.shape it) t → (src (dot fs t)).isSome)
    (hfresh : ∀ i, 0 ≤ i → i < nbPixels (w.layout.shape it) → (fresh i).isSome) :
    ∃ out, numpyCopy srt w it src fresh = .ok out ∧ CopyOf (w.layout.shape it) fs src out := by
  have hA := addressing_acc_reverse (w.layout.shape it)
  obtain ⟨out, h1, h2, -⟩ := C08_strided_copy hsrt (w.layout.shape it) fs (cStrides (w.layout.shape it)) src fresh hp
    hne hl (cStrides_length _) hsrc (fun c hc => by
      have := hA.bounds c hc
      rw [nbPixels_eq_prod] at hfresh
      exact hfresh _ this.1 this.2)
  refine ⟨out, ?_, ?_⟩
  · rw [numpyCopy, hs, Res.ok_bind]; exact h1
  · intro t ht
    refine ⟨hsrc t ht, ?_⟩
    rw [← dot_cStrides _ _ ht.length_eq]
    exact h2 hA.inj t ht

/-- **C41** `numpy_copy` of a field of a collection, in either storage order and with any pixel strides: the copy
succeeds and holds at every tuple (component, sub-point, pixel) the field's element with that tuple. -/
theorem C41_copy {α : Type} {srt : SortFn} (hsrt : SortSpec srt) (l : FieldLayout)
    (ho : l.order = .colMajor ∨ l.order = .rowMajor) (hpix : Addressing l.pixShape l.pixStrides l.nbBuf)
    (hc : Pos l.comps) (hn : 0 < l.nbSub) (hpp : Pos l.pixShape) {src fresh : Mem α}
    (hsrc : ∀ i, 0 ≤ i → i < l.nbComp * l.nbSub * l.nbBuf → (src i).isSome)
    (hfresh : ∀ i, 0 ≤ i → i < nbPixels (l.shape .subPt) → (fresh i).isSome) :
    ∃ fs out, l.strides .subPt 1 = .ok fs ∧ Addressing (l.shape .subPt) fs (l.nbComp * l.nbSub * l.nbBuf) ∧
      numpyCopy srt ⟨l, []⟩ .subPt src fresh = .ok out ∧ CopyOf (l.comps ++ l.nbSub :: l.pixShape) fs src out := by
  obtain ⟨fs, h1, h2, h3, -⟩ := C18_sub_pt_strides l ho hpix
  have hp : Pos (l.shape .subPt) := by
    rw [h2]
    intro n hm
    rcases List.mem_append.1 hm with hm | hm
    · exact hc n hm
    · rcases List.mem_cons.1 hm with rfl | hm
      · exact hn
      · exact hpp n hm
  obtain ⟨out, k1, k2⟩ := numpyCopy_spec hsrt ⟨l, []⟩ .subPt (src := src) (fresh := fresh) h1 h3.length_eq hp
    (by dsimp only; rw [h2]; simp) (fun t ht => hsrc _ (h3.bounds t ht).1 (h3.bounds t ht).2) hfresh
  refine ⟨fs, out, h1, h3, k1, ?_⟩
  rw [← h2]; exact k2

/-- A row-major field with two components and two sub-points on a grid padded to rows of five. -/
example : ∃ out, numpyCopy stableSort ⟨⟨.rowMajor, [2], 2, [2, 2], [1, 3], 5⟩, []⟩ .subPt
      (bufferOf ((List.range 20).map Int.ofNat)) (bufferOf (List.replicate 16 0)) = .ok out ∧
    (List.range 16).map (fun k : Nat => out k) =
      [0, 3, 1, 4, 5, 8, 6, 9, 10, 13, 11, 14, 15, 18, 16, 19].map some := by
  refine ⟨_, rfl, by decide +kernel⟩

example : ∃ l : FieldLayout, l.order = .rowMajor ∧ Addressing l.pixShape l.pixStrides l.nbBuf ∧ Pos l.comps ∧
    0 < l.nbSub ∧ Pos l.pixShape ∧ l.pixStrides = [1, 3] := by
  have h : NestedStrides [2, 2] [1, 3] := ⟨by decide, [1, 0], by decide, by simp [pick, SD, maxIdx]⟩
  obtain ⟨m, -, hm⟩ := C18_global_pixels h (by decide)
  exact ⟨⟨.rowMajor, [2], 2, [2, 2], [1, 3], m⟩, rfl, hm, by simp [Pos], by simp, by simp [Pos], rfl⟩

/-- **C41** `numpy_copy` of a wrapped array that is shown correctly (C40) gives the elements of that array.  `mem`
is the memory of the array in bytes. -/
theorem C41_wrapped {α : Type} {srt : SortFn} (hsrt : SortSpec srt) {w : Wrapped} {a : NpArray} {sub : Bool}
    (hw : Shows w a sub) (hp : Pos (w.layout.shape .subPt))
    {fs : List Int} (hfs : w.strides .subPt 1 = .ok fs) (hl : fs.length = (w.layout.shape .subPt).length)
    {mem fresh : Mem α}
    (hsrc : ∀ c s p, InBox w.layout.comps c → 0 ≤ s → s < w.layout.nbSub → InBox w.layout.pixShape p →
      (mem (dot a.strides (c ++ (if sub then [s] else []) ++ p))).isSome)
    (hfresh : ∀ i, 0 ≤ i → i < nbPixels (w.layout.shape .subPt) → (fresh i).isSome) :
    ∃ out, numpyCopy srt w .subPt (fun k => mem (a.item * k)) fresh = .ok out ∧
      ∀ c s p, InBox w.layout.comps c → 0 ≤ s → s < w.layout.nbSub → InBox w.layout.pixShape p →
        out (rowMajorNumber (w.layout.shape .subPt) (List.replicate (w.layout.shape .subPt).length 0) (c ++ s :: p)) =
          mem (dot a.strides (c ++ (if sub then [s] else []) ++ p)) := by
  obtain ⟨fs', h1, h2⟩ := hw
  rw [hfs] at h1
  cases h1
  have hbox : ∀ t, InBox (w.layout.shape .subPt) t → ∃ c s p, t = c ++ s :: p ∧ InBox w.layout.comps c ∧ 0 ≤ s ∧
      s < w.layout.nbSub ∧ InBox w.layout.pixShape p := by
    intro t ht
    rw [shape_subPt, List.append_assoc] at ht
    obtain ⟨c, r, rfl, hc, hr⟩ := inBox_append.1 ht
    cases r with
    | nil => exact absurd hr (by simp [InBox])
    | cons s p => exact ⟨c, s, p, rfl, hc, hr.1, hr.2.1, hr.2.2⟩
  obtain ⟨out, k1, k2⟩ := numpyCopy_spec hsrt w .subPt (src := fun k => mem (a.item * k)) (fresh := fresh) hfs hl hp
    (by rw [shape_subPt]; simp)
    (fun t ht => by
      obtain ⟨c, s, p, rfl, hc, hs0, hs1, hpp⟩ := hbox t ht
      rw [h2 c s p hc hs0 hs1 hpp]
      exact hsrc c s p hc hs0 hs1 hpp) hfresh
  refine ⟨out, k1, ?_⟩
  intro c s p hc hs0 hs1 hpp
  have ht : InBox (w.layout.shape .subPt) (c ++ s :: p) := by
    rw [shape_subPt, List.append_assoc]
    exact inBox_append.2 ⟨c, s :: p, rfl, hc, hs0, hs1, hpp⟩
  rw [(k2 _ ht).2]
  simp only
  rw [h2 c s p hc hs0 hs1 hpp]

/-- A reversed scalar array of three elements, `a[::-1]`, as field with an explicit component axis. -/
example : ∃ w out, Accepted stableSort [3] [1] 1 ⟨[1, 3], [8, -8], 8⟩ false w ∧
    numpyCopy stableSort w .subPt (fun k => (fun b : Int => if -16 ≤ b ∧ b ≤ 0 then some b else none) (8 * k))
      (bufferOf [1, 1, 1]) = .ok out ∧
    (List.range 3).map (fun k : Nat => out k) = [0, -8, -16].map some := by
  refine ⟨⟨⟨.unknown, [1], 1, [3], [-8], 0⟩, [1, 0, -1]⟩, _, ?_, rfl, by decide⟩
  exact .subPt (domain := [3]) (loc := [0]) (by decide)

/-- The full statement of C41 for the pixel view: copying succeeds, and different tuples of the copy come from
different elements of the field. -/
def C41_pixel_statement : Prop :=
  ∀ (l : FieldLayout) (src fresh : Mem Int), (l.order = .colMajor ∨ l.order = .rowMajor) →
    Addressing l.pixShape l.pixStrides l.nbBuf → Pos l.comps → 0 < l.nbSub → Pos l.pixShape →
    l.shape .pixel ≠ [] →
    (∀ i, 0 ≤ i → i < l.nbComp * l.nbSub * l.nbBuf → src i = some i) →
    (∀ i, 0 ≤ i → i < nbPixels (l.shape .pixel) → (fresh i).isSome) →
    ∃ out, numpyCopy stableSort ⟨l, []⟩ .pixel src fresh = .ok out ∧
      ∀ t t', InBox (l.shape .pixel) t → InBox (l.shape .pixel) t' →
        out (rowMajorNumber (l.shape .pixel) (List.replicate (l.shape .pixel).length 0) t) =
          out (rowMajorNumber (l.shape .pixel) (List.replicate (l.shape .pixel).length 0) t') → t = t'

/-- **C41** does not hold for the pixel view: a scalar field with two sub-points cannot be copied. -/
theorem C41_pixel_false : ¬ C41_pixel_statement := by
  intro h
  obtain ⟨out, h1, -⟩ := h ⟨.colMajor, [], 2, [3], [1], 3⟩ (fun i => some i) (fun i => some i) (Or.inl rfl)
    (addressing_single 3) (by decide) (by decide) (by decide) (by decide) (fun _ _ _ => rfl) (fun _ _ _ => rfl)
  have h2 : numpyCopy stableSort ⟨⟨.colMajor, [], 2, [3], [1], 3⟩, []⟩ .pixel (fun i => some i) (fun i => some i) =
      .throw .runtimeError := rfl
  rw [h2] at h1
  cases h1

/-- **C41** The copy of the pixel view of a row-major field with 2 × 2 components and two sub-points has one
element of the field twice and misses others. -/
theorem C41_pixel_row_major : ∃ out, numpyCopy stableSort ⟨⟨.rowMajor, [2, 2], 2, [1], [1], 1⟩, []⟩ .pixel
      (bufferOf [0, 1, 2, 3, 4, 5, 6, 7]) (bufferOf (List.replicate 8 0)) = .ok out ∧
    (List.range 8).map (fun k : Nat => out k) = [0, 1, 2, 3, 2, 3, 4, 5].map some := by
  refine ⟨_, rfl, by decide +kernel⟩

/-- **C41** (part: pixel view) In the layouts with a correct pixel view (`PixelViewOk`, see C19) the copy of the
pixel view holds the elements of the field; `C19_views_agree` tells which.  Missing: the other layouts, where the
claim is false. -/
theorem C41_pixel_partial {α : Type} {srt : SortFn} (hsrt : SortSpec srt) (l : FieldLayout)
    (ho : l.order = .colMajor ∨ l.order = .rowMajor) (hpix : Addressing l.pixShape l.pixStrides l.nbBuf)
    (hn : 0 < l.nbSub) (hok : PixelViewOk l) (hp : Pos (l.shape .pixel)) (hne : l.shape .pixel ≠ [])
    {src fresh : Mem α} (hsrc : ∀ i, 0 ≤ i → i < l.nbComp * l.nbSub * l.nbBuf → (src i).isSome)
    (hfresh : ∀ i, 0 ≤ i → i < nbPixels (l.shape .pixel) → (fresh i).isSome) :
    ∃ fs out, l.strides .pixel 1 = .ok fs ∧ Addressing (l.shape .pixel) fs (l.nbComp * l.nbSub * l.nbBuf) ∧
      numpyCopy srt ⟨l, []⟩ .pixel src fresh = .ok out ∧ CopyOf (l.shape .pixel) fs src out := by
  obtain ⟨fs, h1, h3⟩ := C19_pixel_strides_partial l ho hn hpix hok
  obtain ⟨out, k1, k2⟩ := numpyCopy_spec hsrt ⟨l, []⟩ .pixel (src := src) (fresh := fresh) h1 h3.length_eq hp hne
    (fun t ht => hsrc _ (h3.bounds t ht).1 (h3.bounds t ht).2) hfresh
  exact ⟨fs, out, h1, h3, k1, k2⟩

example : PixelViewOk ⟨.colMajor, [2, 2], 2, [3], [1], 3⟩ ∧
    Pos (FieldLayout.shape ⟨.colMajor, [2, 2], 2, [3], [1], 3⟩ .pixel) := by
  refine ⟨Or.inr ⟨by decide, Or.inl rfl⟩, by decide⟩

/-! ## C60 -/

/-- The array shows in each element the field's element with the same tuple (offsets in bytes). -/
def Window (w : Wrapped) (it : IterUnit) (item : Int) (b : NpArray) : Prop :=
  b.shape = w.layout.shape it ∧ b.item = item ∧
    ∃ fs, w.strides it 1 = .ok fs ∧ ∀ t, InBox b.shape t → dot b.strides t = item * dot fs t

/-- **C60** `numpy_wrap` of a field of a collection: for all element sizes, both storage orders and both views. -/
theorem C60_wrap (l : FieldLayout) (ho : l.order = .colMajor ∨ l.order = .rowMajor) (it : IterUnit) (item : Int) :
    ∃ b, numpyWrap ⟨l, []⟩ it item = .ok b ∧ Window ⟨l, []⟩ it item b := by
  have hs : ∃ fs, l.strides it 1 = .ok fs := by
    rcases ho with h | h <;> cases it
    · exact ⟨_, strides_pixel_col l h⟩
    · exact ⟨_, strides_col l h⟩
    · exact ⟨_, strides_pixel_row l h⟩
    · exact ⟨_, strides_row l h⟩
  obtain ⟨fs, hs⟩ := hs
  have he := (C18_element_size l it item).1 fs hs
  refine ⟨⟨l.shape it, fs.map (· * item), item⟩, ?_, rfl, rfl, fs, hs, ?_⟩
  · have : Wrapped.strides ⟨l, []⟩ it item = .ok (fs.map (· * item)) := he
    rw [numpyWrap, this, Res.ok_bind]
    rfl
  · intro t _
    simp only
    rw [dot_map_mul, mul_comm]

example : ∃ b, numpyWrap ⟨⟨.rowMajor, [2, 2], 2, [3], [1], 3⟩, []⟩ .subPt 8 = .ok b ∧
    Window ⟨⟨.rowMajor, [2, 2], 2, [3], [1], 3⟩, []⟩ .subPt 8 b := C60_wrap _ (Or.inr rfl) _ _

/-- The full statement of C60: also for the fields that wrap an array. -/
def C60_statement (srt : SortFn) : Prop :=
  ∀ nb comps nbSub a sub w, Pos a.shape → 0 < a.item → a.strides.length = a.shape.length →
    (∀ s ∈ a.strides, a.item ∣ s) → Accepted srt nb comps nbSub a sub w →
    ∃ b, numpyWrap w .subPt a.item = .ok b ∧ Window w .subPt a.item b

/-- **C60** is false for wrapped arrays in none of the orders of the library: their strides are given to numpy in
elements instead of bytes (here every second pixel of an array with two components per pixel). -/
theorem C60_false : ¬ C60_statement stableSort := by
  intro h
  have hw : proxyPixel stableSort [3] [3] [0] 2 ⟨[2, 3], [8, 32], 8⟩ =
      .ok ⟨⟨.unknown, [2], 1, [3], [1], 3⟩, [1, 0, 4]⟩ := by decide
  obtain ⟨b, h1, h2, h3, fs, h4, h5⟩ := h [3] [2] 1 ⟨[2, 3], [8, 32], 8⟩ false _ (by decide) (by decide) (by decide)
    (by decide) (.pixel (by decide) rfl hw)
  have hb : numpyWrap ⟨⟨.unknown, [2], 1, [3], [1], 3⟩, [1, 0, 4]⟩ .subPt 8 = .ok ⟨[2, 1, 3], [1, 0, 4], 8⟩ := rfl
  rw [hb] at h1
  cases h1
  cases h4
  exact absurd (h5 [1, 0, 0] (by decide)) (by decide)

/-- **C60** (part: wrapped arrays in an order of the library) Missing: the arrays in other orders, where the claim
is false. -/
theorem C60_wrapped_partial {w : Wrapped} (hc : w.custom = []) (ho : w.layout.order = .colMajor ∨ w.layout.order = .rowMajor)
    (it : IterUnit) (item : Int) : ∃ b, numpyWrap w it item = .ok b ∧ Window w it item b := by
  obtain ⟨l, c⟩ := w
  cases hc
  exact C60_wrap l ho it item

example : ∃ b, numpyWrap ⟨⟨.colMajor, [2], 1, [3], [1], 3⟩, []⟩ .pixel 8 = .ok b ∧
    Window ⟨⟨.colMajor, [2], 1, [3], [1], 3⟩, []⟩ .pixel 8 b := C60_wrapped_partial rfl (Or.inl rfl) _ _

/-- **C60** For the other wrapped arrays the view is right exactly if elements are one byte long (or all
offsets vanish). -/
theorem C60_exact {w : Wrapped} (hc : w.custom ≠ []) (item : Int) :
    (∃ b, numpyWrap w .subPt item = .ok b ∧ Window w .subPt item b) ↔
      item = 1 ∨ ∀ t, InBox (w.layout.shape .subPt) t → dot w.custom t = 0 := by
  have hs : ∀ e, w.strides .subPt e = .ok w.custom := by
    intro e
    rw [Wrapped.strides, if_pos (List.length_pos_of_ne_nil hc)]
  constructor
  · rintro ⟨b, h1, h2, h3, fs, h4, h5⟩
    rw [numpyWrap, hs, Res.ok_bind] at h1
    rw [hs] at h4
    cases h1
    cases h4
    by_cases hi : item = 1
    · exact Or.inl hi
    · refine Or.inr fun t ht => ?_
      have h6 : dot w.custom t = item * dot w.custom t := h5 t ht
      have h7 : (item - 1) * dot w.custom t = 0 := by linarith
      rcases mul_eq_zero.1 h7 with h8 | h8
      · omega
      · exact h8
  · intro h
    refine ⟨⟨w.layout.shape .subPt, w.custom, item⟩, ?_, rfl, rfl, w.custom, hs 1, ?_⟩
    · rw [numpyWrap, hs, Res.ok_bind]; rfl
    · intro t ht
      rcases h with rfl | h
      · simp
      · have := h t ht
        simp only
        rw [this, mul_zero]

example : (⟨⟨.unknown, [2], 1, [3], [1], 3⟩, [1, 0, 4]⟩ : Wrapped).custom ≠ [] := by decide

end Verif.Props
