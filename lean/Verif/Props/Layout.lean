import Verif.Lemmas.Address
import Verif.Props.Grid
import Verif.Props.RawMemory
/-
Properties C18, C19, C20 and C50: shapes, strides and assignment of fields.
`Addressing` and `Fills` are defined in `Verif.Spec.Address`.
-/
namespace Verif.Props
open Verif Verif.Ccoord Verif.Layout Verif.Layout.FieldLayout Verif.RawMemory

/-! ## C18 -/

/-- The pixels of a global collection with nested strides (dense, padded, transposed) have their own
places in a buffer of the size computed by the library. -/
theorem C18_global_pixels {nb strides : List Int} (h : NestedStrides nb strides) (hne : nb ≠ []) :
    ∃ m, getBufferSize nb strides = .ok m ∧ Addressing nb strides m := by
  obtain ⟨m, h1, h2⟩ := C05_buffer_size h hne
  exact ⟨m, h1, addressing_of_nested h h2⟩

example : NestedStrides [3, 2] [1, 5] :=
  ⟨by decide, [1, 0], by decide, by simp [pick, SD, maxIdx]⟩

/-- The pixels of a local collection (shape `{nb_pixels}`, stride 1) have their own places and fill
the buffer. -/
theorem C18_local_pixels (n : Int) : Addressing [n] [1] n ∧ Fills [n] [1] n :=
  ⟨addressing_single n, fills_single n⟩

/-- **C18** In both storage orders, strides and shape of the sub-point view give every (component,
sub-point, pixel) tuple its own offset within the buffer of `nb_components*nb_sub_pts*nb_buffer_pixels`
entries; if the pixels fill their buffer, the elements fill the field's buffer. -/
theorem C18_sub_pt_strides (l : FieldLayout) (ho : l.order = .colMajor ∨ l.order = .rowMajor)
    (hpix : Addressing l.pixShape l.pixStrides l.nbBuf) :
    ∃ s, l.strides .subPt 1 = .ok s ∧ l.shape .subPt = l.comps ++ l.nbSub :: l.pixShape ∧
      Addressing (l.shape .subPt) s (l.nbComp * l.nbSub * l.nbBuf) ∧
      (Pos l.comps → 0 < l.nbSub → 0 < l.nbBuf → Fills l.pixShape l.pixStrides l.nbBuf →
        Fills (l.shape .subPt) s (l.nbComp * l.nbSub * l.nbBuf)) := by
  rcases ho with h | h
  · refine ⟨_, l.strides_col h, by simp [shape_subPt], ?_, ?_⟩
    · rw [shape_subPt, nbComp_eq]
      exact ((addressing_acc l.comps).append_fast (addressing_single l.nbSub)).append_fast hpix
    · intro hp hs hb hf
      rw [shape_subPt, nbComp_eq]
      have hc := prod_pos_of_pos hp
      exact Fills.append_fast (by simp [accStrides_length])
        (Fills.append_fast (accStrides_length _ _) (fills_acc hp) (fills_single _) hc) hf
        (by positivity)
  · refine ⟨_, l.strides_row h, by simp [shape_subPt], ?_, ?_⟩
    · rw [shape_subPt, nbComp_eq]
      exact ((addressing_acc_reverse l.comps).append_slow (addressing_single l.nbSub)).append_slow hpix
    · intro hp hs hb hf
      rw [shape_subPt, nbComp_eq]
      exact Fills.append_slow (by simp [accStrides_length])
        (Fills.append_slow (by simp [accStrides_length]) (fills_acc_reverse hp) (fills_single _) hs)
        hf hb

example : ∃ l : FieldLayout, l.order = .rowMajor ∧ l.comps = [2, 3] ∧ l.nbSub = 2 ∧
    Addressing l.pixShape l.pixStrides l.nbBuf ∧ l.strides .subPt 1 = .ok [36, 12, 6, 1] :=
  ⟨⟨.rowMajor, [2, 3], 2, [6], [1], 6⟩, rfl, rfl, rfl, addressing_single 6, by decide⟩

/-- **C18** Strides for elements of `e` bytes are `e` times the strides in elements. -/
theorem C18_element_size (l : FieldLayout) (it : IterUnit) (e : Int) :
    (∀ s, l.strides it 1 = .ok s → l.strides it e = .ok (s.map (· * e))) ∧
    (l.order ≠ .colMajor → l.order ≠ .rowMajor → l.strides it e = .throw .fieldError) := by
  have h1 : ∀ s, accStrides e s = (accStrides 1 s).map (· * e) := by
    intro s; rw [← accStrides_mul, one_mul]
  constructor
  · intro s hs
    have h2 : ∀ (k m : Int) (t : List Int), (t.map (· * k)).map (· * m) = (t.map (· * m)).map (· * k) := by
      intro k m t
      rw [List.map_map, List.map_map]
      apply List.map_congr_left
      intro x _
      simp only [Function.comp]; ring
    rcases ho : l.order <;> rcases it <;>
      simp only [strides, subPtStrides, componentsStrides, ho, pixelsStrides, Res.ok_bind,
        Res.pure_eq, Res.throw_bind, Res.ok.injEq, reduceCtorEq] at hs ⊢ <;>
      subst hs <;> simp only [h1, List.map_append, ← List.map_reverse, mul_one, List.map_id',
        List.map_cons, List.map_nil, one_mul, h2 e]
    ring_nf
  · intro h2 h3
    rcases ho : l.order <;> simp_all [strides, subPtStrides, componentsStrides]

example : FieldLayout.strides ⟨.colMajor, [2, 3], 2, [6], [1], 6⟩ .pixel 8 = .ok [8, 16, 96] := by
  decide

/-! ## C19 -/

/-- The full claim **C19**: the pixel view addresses distinct entries within the buffer. -/
def C19_statement : Prop :=
  ∀ l : FieldLayout, (l.order = .colMajor ∨ l.order = .rowMajor) → Pos l.comps → 0 < l.nbSub →
    Pos l.pixShape → Addressing l.pixShape l.pixStrides l.nbBuf →
    ∃ s, l.strides .pixel 1 = .ok s ∧
      Addressing (l.shape .pixel) s (l.nbComp * l.nbSub * l.nbBuf)

/-- The cases in which the pixel view is right. -/
def PixelViewOk (l : FieldLayout) : Prop :=
  l.nbSub = 1 ∨ (l.comps ≠ [] ∧ (l.order = .colMajor ∨ ∀ n ∈ l.comps.dropLast, n = 1))

theorem scaleLast_append (nb n : Int) (s : List Int) : scaleLast nb (s ++ [n]) = s ++ [n * nb] := by
  induction s with
  | nil => rfl
  | cons m s ih =>
    cases s with
    | nil => rfl
    | cons k s => simpa [scaleLast] using ih

theorem strides_pixel_col (l : FieldLayout) (h : l.order = .colMajor) :
    l.strides .pixel 1 = .ok (accStrides 1 l.comps ++
      l.pixStrides.map (· * (l.comps.prod * l.nbSub))) := by
  simp [strides, subPtStrides, componentsStrides, h, pixelsStrides, nbDof, nbComp_eq]

theorem strides_pixel_row (l : FieldLayout) (h : l.order = .rowMajor) :
    l.strides .pixel 1 = .ok ((accStrides 1 l.comps.reverse).reverse.map (· * l.nbBuf) ++
      l.pixStrides) := by
  simp [strides, subPtStrides, componentsStrides, h, pixelsStrides]

theorem dot_ones {s st c : List Int} (h1 : ∀ n ∈ s, n = 1) (hc : InBox s c) : dot st c = 0 := by
  induction s generalizing st c with
  | nil => cases c <;> cases st <;> simp_all [InBox, dot]
  | cons n s ih =>
    cases c with
    | nil => simp [InBox] at hc
    | cons x c =>
      have hn := h1 n (by simp)
      simp only [InBox] at hc
      have hx : x = 0 := by omega
      cases st with
      | nil => simp [dot]
      | cons y st => simp [dot, hx, ih (fun m hm => h1 m (by simp [hm])) hc.2.2]

theorem inBox_ones_unique {s c c' : List Int} (h1 : ∀ n ∈ s, n = 1) (hc : InBox s c)
    (hc' : InBox s c') : c = c' := by
  induction s generalizing c c' with
  | nil => cases c <;> cases c' <;> simp_all [InBox]
  | cons n s ih =>
    cases c with
    | nil => simp [InBox] at hc
    | cons x c =>
      cases c' with
      | nil => simp [InBox] at hc'
      | cons y c' =>
        have hn := h1 n (by simp)
        simp only [InBox] at hc hc'
        rw [ih (fun m hm => h1 m (by simp [hm])) hc.2.2 hc'.2.2]
        congr 1; omega

theorem addressing_ones {s st : List Int} (hl : st.length = s.length) (h1 : ∀ n ∈ s, n = 1) :
    Addressing s st 1 :=
  ⟨hl, fun c hc => by rw [dot_ones h1 hc]; omega, fun c c' hc hc' _ => inBox_ones_unique h1 hc hc'⟩

theorem prod_ones {s : List Int} (h1 : ∀ n ∈ s, n = 1) : s.prod = 1 := by
  induction s with
  | nil => rfl
  | cons n s ih =>
    rw [List.prod_cons, h1 n (by simp), ih (fun m hm => h1 m (by simp [hm]))]; rfl

/-- **C19** The pixel view addresses distinct entries within the buffer whenever there is a
single sub-point, or the field has components and either is column-major or only its last component
axis is longer than one.  What is missing: the other layouts, for which the claim is false
(`C19_exact`). -/
theorem C19_pixel_strides_partial (l : FieldLayout)
    (ho : l.order = .colMajor ∨ l.order = .rowMajor) (hs : 0 < l.nbSub)
    (hpix : Addressing l.pixShape l.pixStrides l.nbBuf) (hok : PixelViewOk l) :
    ∃ s, l.strides .pixel 1 = .ok s ∧
      Addressing (l.shape .pixel) s (l.nbComp * l.nbSub * l.nbBuf) := by
  by_cases h1 : l.nbSub = 1
  · have hsh : l.shape .pixel = l.comps ++ l.pixShape := by
      simp [shape, subPtShape, h1]
    rw [hsh, nbComp_eq, h1, mul_one]
    rcases ho with h | h
    · refine ⟨_, strides_pixel_col l h, ?_⟩
      rw [h1, mul_one]
      exact (addressing_acc l.comps).append_fast hpix
    · exact ⟨_, strides_pixel_row l h, (addressing_acc_reverse l.comps).append_slow hpix⟩
  · rcases hok with hok | ⟨hne, hok⟩
    · exact absurd hok h1
    · obtain ⟨init, n, hc⟩ : ∃ init n, l.comps = init ++ [n] :=
        ⟨_, _, (List.dropLast_append_getLast hne).symm⟩
      have hsh : l.shape .pixel = (init ++ [n * l.nbSub]) ++ l.pixShape := by
        have hg : l.nbSub > 1 := by omega
        simp [shape, subPtShape, hg, hc, scaleLast_append]
      have hn : l.nbComp = init.prod * n := by simp [nbComp_eq, hc]
      rw [hsh, hn]
      by_cases hcol : l.order = .colMajor
      · refine ⟨_, strides_pixel_col l hcol, ?_⟩
        have e1 : accStrides 1 l.comps = accStrides 1 init ++ [1].map (· * init.prod) := by
          simp [hc, accStrides_append, accStrides]
        have e2 : l.comps.prod * l.nbSub = init.prod * (n * l.nbSub) := by
          simp [hc]; ring
        rw [e1, e2, show init.prod * n * l.nbSub = init.prod * (n * l.nbSub) by ring]
        exact ((addressing_acc init).append_fast (addressing_single (n * l.nbSub))).append_fast hpix
      · have hrow : l.order = .rowMajor := by tauto
        have hones : ∀ m ∈ init, m = 1 := by
          have := hok.resolve_left hcol
          simpa [hc] using this
        refine ⟨_, strides_pixel_row l hrow, ?_⟩
        have e1 : (accStrides 1 l.comps.reverse).reverse =
            (accStrides n init.reverse).reverse ++ [1].map (· * 1) := by
          simp [hc, accStrides]
        rw [e1, prod_ones hones]
        have hon : Addressing init (accStrides n init.reverse).reverse 1 :=
          addressing_ones (by rw [List.length_reverse, accStrides_length, List.length_reverse]) hones
        have := (hon.append_fast (addressing_single (n * l.nbSub))).append_slow hpix
        rw [show 1 * n * l.nbSub = 1 * (n * l.nbSub) by ring]
        exact this

example : PixelViewOk ⟨.colMajor, [2, 3], 4, [6], [1], 6⟩ ∧
    FieldLayout.shape ⟨.colMajor, [2, 3], 4, [6], [1], 6⟩ .pixel = [2, 12, 6] ∧
    FieldLayout.strides ⟨.colMajor, [2, 3], 4, [6], [1], 6⟩ .pixel 1 = .ok [1, 2, 24] := by
  refine ⟨Or.inr ⟨by decide, Or.inl rfl⟩, by decide, by decide⟩

theorem exists_split_last {s : List Int} (hp : Pos s) (h : ¬ ∀ n ∈ s, n = 1) :
    ∃ a n b, s = a ++ n :: b ∧ 1 < n ∧ ∀ m ∈ b, m = 1 := by
  induction s with
  | nil => simp at h
  | cons n s ih =>
    have hn := Pos.cons.1 hp
    by_cases hs : ∀ m ∈ s, m = 1
    · refine ⟨[], n, s, rfl, ?_, hs⟩
      by_contra hlt
      exact h (by
        intro m hm
        rcases List.mem_cons.1 hm with rfl | hm
        · omega
        · exact hs m hm)
    · obtain ⟨a, m, b, rfl, h1, h2⟩ := ih hn.2 hs
      exact ⟨n :: a, m, b, by simp, h1, h2⟩

theorem inBox_zeros {s : List Int} (hp : Pos s) : InBox s (List.replicate s.length 0) := by
  induction s with
  | nil => simp [InBox]
  | cons n s ih =>
    have hn := Pos.cons.1 hp
    simp only [List.length_cons, List.replicate_succ, InBox]
    exact ⟨by omega, hn.1, ih hn.2⟩

theorem dot_replicate_zero (s : List Int) (k : Nat) : dot s (List.replicate k 0) = 0 := by
  induction s generalizing k with
  | nil => simp [dot]
  | cons x s ih => cases k <;> simp [List.replicate_succ, dot, ih]

/-- **C19** Exactly the layouts named in `PixelViewOk` have a correct pixel view: in all others the
shape and strides have different lengths or two index tuples share an entry. -/
theorem C19_exact (l : FieldLayout) (ho : l.order = .colMajor ∨ l.order = .rowMajor)
    (hp : Pos l.comps) (hs : 0 < l.nbSub) (hpp : Pos l.pixShape)
    (hpix : Addressing l.pixShape l.pixStrides l.nbBuf) :
    (∃ s, l.strides .pixel 1 = .ok s ∧
      Addressing (l.shape .pixel) s (l.nbComp * l.nbSub * l.nbBuf)) ↔ PixelViewOk l := by
  constructor
  · rintro ⟨s, hst, ha⟩
    by_contra hbad
    simp only [PixelViewOk, not_or, not_and] at hbad
    obtain ⟨hn1, hbad⟩ := hbad
    have hg : l.nbSub > 1 := by omega
    by_cases hne : l.comps = []
    · -- no components: the shape has an axis without a stride
      have hsh : (l.shape .pixel).length = 1 + l.pixShape.length := by
        simp [shape, subPtShape, hg, hne]; omega
      have hlen := ha.length_eq
      have hpl := hpix.length_eq
      rcases ho with h | h
      · rw [strides_pixel_col l h] at hst; cases hst
        simp [hne, accStrides] at hlen; omega
      · rw [strides_pixel_row l h] at hst; cases hst
        simp [hne, accStrides] at hlen; omega
    · obtain ⟨hcol, hnot⟩ := hbad hne
      have hrow : l.order = .rowMajor := by tauto
      obtain ⟨init, n, hc⟩ : ∃ init n, l.comps = init ++ [n] :=
        ⟨_, _, (List.dropLast_append_getLast hne).symm⟩
      have hnot' : ¬ ∀ m ∈ init, m = 1 := by simpa [hc] using hnot
      have hpi : Pos init := fun m hm => hp m (by simp [hc, hm])
      have hn : 0 < n := hp n (by simp [hc])
      obtain ⟨a, m, b, hi, hm, hb⟩ := exists_split_last hpi hnot'
      have hsh : l.shape .pixel = a ++ (m :: b) ++ [n * l.nbSub] ++ l.pixShape := by
        rw [← hi]
        simp [shape, subPtShape, hg, hc, scaleLast_append]
      rw [strides_pixel_row l hrow] at hst
      cases hst
      -- strides: (..., n, n, ..., n, 1) * nbBuf
      have e1 : (accStrides 1 l.comps.reverse).reverse =
          (accStrides (n * m) a.reverse).reverse ++ (n :: (accStrides n b.reverse).reverse) ++ [1] := by
        have hbp : b.reverse.prod = 1 := by rw [List.prod_reverse, prod_ones hb]
        simp [hc, hi, accStrides, accStrides_append, hbp]
      have hpa : Pos a := fun k hk => hpi k (by simp [hi, hk])
      have hpb : Pos b := fun k hk => hpi k (by simp [hi, hk])
      have hza := inBox_zeros hpa
      have hzb := inBox_zeros hpb
      have hzp := inBox_zeros hpp
      have hnn : n < n * l.nbSub := by nlinarith
      have c1 : InBox (l.shape .pixel) (List.replicate a.length 0 ++ (1 :: List.replicate b.length 0) ++
          [0] ++ List.replicate l.pixShape.length 0) := by
        rw [hsh]
        refine inBox_append.2 ⟨_, _, rfl, inBox_append.2 ⟨_, _, rfl, inBox_append.2 ⟨_, _, rfl, hza, ?_⟩, ?_⟩, hzp⟩
        · exact ⟨by omega, by omega, hzb⟩
        · simp only [InBox, and_true]; omega
      have c2 : InBox (l.shape .pixel) (List.replicate a.length 0 ++ (0 :: List.replicate b.length 0) ++
          [n] ++ List.replicate l.pixShape.length 0) := by
        rw [hsh]
        refine inBox_append.2 ⟨_, _, rfl, inBox_append.2 ⟨_, _, rfl, inBox_append.2 ⟨_, _, rfl, hza, ?_⟩, ?_⟩, hzp⟩
        · exact ⟨by omega, by omega, hzb⟩
        · simp only [InBox, and_true]; omega
      have hne2 := ha.inj _ _ c1 c2 (by
        rw [e1]
        rw [dot_append (by simp [accStrides_length]), dot_append (by simp [accStrides_length]),
          dot_map_mul, dot_map_mul, dot_append (by simp [accStrides_length]),
          dot_append (by simp [accStrides_length]), dot_append (by simp [accStrides_length]),
          dot_append (by simp [accStrides_length])]
        simp [dot, dot_replicate_zero])
      simp only [List.append_assoc, List.cons_append, List.append_cancel_left_eq, List.cons.injEq] at hne2
      omega
  · exact C19_pixel_strides_partial l ho hs hpix

example : (∃ s, FieldLayout.strides ⟨.colMajor, [2, 3], 4, [6], [1], 6⟩ .pixel 1 = .ok s ∧
    Addressing (FieldLayout.shape ⟨.colMajor, [2, 3], 4, [6], [1], 6⟩ .pixel) s (6 * 4 * 6)) :=
  (C19_exact ⟨.colMajor, [2, 3], 4, [6], [1], 6⟩ (Or.inl rfl) (by decide) (by decide) (by decide)
    (addressing_single 6)).2 (Or.inr ⟨by decide, Or.inl rfl⟩)

/-- **C19** is false of the code (row-major field with 2 × 2 components and 2 sub-points). -/
theorem C19_false : ¬ C19_statement := by
  intro h
  have hh := h ⟨.rowMajor, [2, 2], 2, [3], [1], 3⟩ (Or.inr rfl) (by decide) (by decide) (by decide)
    (addressing_single 3)
  have := (C19_exact ⟨.rowMajor, [2, 2], 2, [3], [1], 3⟩ (Or.inr rfl) (by decide) (by decide)
    (by decide) (addressing_single 3)).1 hh
  revert this
  unfold PixelViewOk
  decide

/-- **C19** Where the pixel view is right it agrees with the sub-point view: with the sub-point
folded into the last component index (after it in column-major, before it in row-major order) the
same entry is addressed. -/
theorem C19_views_agree (l : FieldLayout) (ho : l.order = .colMajor ∨ l.order = .rowMajor)
    (init : List Int) (n : Int) (hc : l.comps = init ++ [n]) (hok : PixelViewOk l)
    {s t : List Int} (hs : l.strides .subPt 1 = .ok s) (ht : l.strides .pixel 1 = .ok t)
    (c p : List Int) (x sub : Int) (hbox : InBox init c)
    (hsub0 : 0 ≤ sub) (hsub : sub < l.nbSub) :
    dot s (c ++ [x] ++ [sub] ++ p) =
      dot t (c ++ [if l.order = .colMajor then x + n * sub else x * l.nbSub + sub] ++ p) := by
  have hcl := hbox.length_eq
  rcases ho with h | h
  · rw [strides_col l h] at hs
    rw [strides_pixel_col l h] at ht
    cases hs; cases ht
    rw [if_pos h]
    have e1 : accStrides 1 l.comps = accStrides 1 init ++ [init.prod] := by
      simp [hc, accStrides_append, accStrides]
    rw [e1, dot_append (by simp [accStrides_length, hcl]), dot_append (by simp [accStrides_length, hcl]),
      dot_append (by simp [accStrides_length, hcl]), dot_append (by simp [accStrides_length, hcl]),
      dot_append (by simp [accStrides_length, hcl])]
    simp only [List.map_cons, List.map_nil, dot, hc, List.prod_append, List.prod_cons, List.prod_nil]
    ring
  · have hcol : ¬ l.order = .colMajor := by rw [h]; decide
    rw [strides_row l h] at hs
    rw [strides_pixel_row l h] at ht
    cases hs; cases ht
    rw [if_neg hcol]
    have e1 : (accStrides 1 l.comps.reverse).reverse = (accStrides n init.reverse).reverse ++ [1] := by
      simp [hc, accStrides]
    rw [e1]
    simp only [List.map_append, List.map_map, List.map_cons, List.map_nil]
    rw [dot_append (by simp [accStrides_length, hcl]), dot_append (by simp [accStrides_length, hcl]),
      dot_append (by simp [accStrides_length, hcl]), dot_append (by simp [accStrides_length, hcl]),
      dot_append (by simp [accStrides_length, hcl])]
    rcases hok with h1 | ⟨-, h1⟩
    · have e2 : (fun x => x * l.nbBuf) ∘ (fun x => x * l.nbSub) = fun x => x * l.nbBuf := by
        funext x; simp [h1]
      rw [e2]
      simp only [dot, h1, mul_one]
      have : sub = 0 := by omega
      subst this
      ring
    · have hones : ∀ m ∈ init, m = 1 := by
        have := h1.resolve_left hcol
        simpa [hc] using this
      rw [dot_ones hones hbox, dot_ones hones hbox]
      simp only [dot]
      ring

example : PixelViewOk ⟨.rowMajor, [1, 3], 4, [6], [1], 6⟩ ∧ InBox [1] [0] ∧
    FieldLayout.strides ⟨.rowMajor, [1, 3], 4, [6], [1], 6⟩ .subPt 1 = .ok [72, 24, 6, 1] ∧
    FieldLayout.strides ⟨.rowMajor, [1, 3], 4, [6], [1], 6⟩ .pixel 1 = .ok [18, 6, 1] := by
  refine ⟨Or.inr ⟨by decide, Or.inr (by decide)⟩, by decide, by decide, by decide⟩

/-! ## C20 -/

/-- **C20** Assignment between global fields of equal shape, whatever their storage orders and pixel
strides: every element tuple of the destination gets the value of the same tuple of the source, and
entries that hold no element (padding) keep theirs. -/
theorem C20_assign {α : Type} {srt : SortFn} (hsrt : SortSpec srt) (self other : FieldLayout)
    (src dst : Mem α) (hso : self.order = .colMajor ∨ self.order = .rowMajor)
    (hoo : other.order = .colMajor ∨ other.order = .rowMajor)
    (hsp : Addressing self.pixShape self.pixStrides self.nbBuf)
    (hop : Addressing other.pixShape other.pixStrides other.nbBuf)
    (hpos : Pos (self.shape .subPt)) (hshape : self.shape .subPt = other.shape .subPt)
    (hsrc : ∀ i, 0 ≤ i → i < other.nbComp * other.nbSub * other.nbBuf → (src i).isSome)
    (hdst : ∀ i, 0 ≤ i → i < self.nbComp * self.nbSub * self.nbBuf → (dst i).isSome) :
    ∃ ms os dst', self.strides .subPt 1 = .ok ms ∧ other.strides .subPt 1 = .ok os ∧
      assign srt self other src dst = .ok dst' ∧
      (∀ c, InBox (self.shape .subPt) c → dst' (dot ms c) = src (dot os c)) ∧
      (∀ a, (∀ c, InBox (self.shape .subPt) c → dot ms c ≠ a) → dst' a = dst a) := by
  obtain ⟨ms, h1, h2, h3, -⟩ := C18_sub_pt_strides self hso hsp
  obtain ⟨os, k1, k2, k3, -⟩ := C18_sub_pt_strides other hoo hop
  obtain ⟨dst', c1, c2, -, c4⟩ := C08_strided_copy hsrt (self.shape .subPt) os ms src dst hpos
    (by rw [h2]; simp) (by rw [k3.length_eq, hshape]) h3.length_eq
    (fun c hc => by
      have := k3.bounds c (by rw [← hshape]; exact hc)
      exact hsrc _ this.1 this.2)
    (fun c hc => by
      have := h3.bounds c hc
      exact hdst _ this.1 this.2)
  refine ⟨ms, os, dst', h1, k1, ?_, c2 h3.inj, c4⟩
  simp only [assign, hshape, ne_eq, not_true_eq_false, if_false, h1, k1, Res.ok_bind]
  rw [← hshape]; exact c1

/-- Non-trivial case: a 2-component field on 3 pixels, row-major assigned to column-major. -/
example : ∃ dst', assign stableSort ⟨.colMajor, [2], 1, [3], [1], 3⟩ ⟨.rowMajor, [2], 1, [3], [1], 3⟩
      (bufferOf [10, 11, 12, 20, 21, 22]) (bufferOf [0, 0, 0, 0, 0, 0]) = .ok dst' ∧
    (List.range 6).map (fun k : Nat => dst' k) = [10, 20, 11, 21, 12, 22].map some := by
  refine ⟨_, rfl, by decide⟩

/-- **C20** Different shapes are rejected (and nothing is copied). -/
theorem C20_shape_mismatch {α : Type} (srt : SortFn) (self other : FieldLayout) (src dst : Mem α)
    (h : self.shape .subPt ≠ other.shape .subPt) :
    assign srt self other src dst = .throw .fieldError := by
  simp [assign, h]

example : FieldLayout.shape ⟨.colMajor, [2], 1, [3], [1], 3⟩ .subPt ≠
    FieldLayout.shape ⟨.colMajor, [2, 1], 1, [3], [1], 3⟩ .subPt := by decide

/-- **C20** Fields on an empty subdomain: nothing happens. -/
theorem C20_empty {α : Type} (srt : SortFn) (self other : FieldLayout) (src dst : Mem α)
    (hso : self.order = .colMajor ∨ self.order = .rowMajor)
    (hoo : other.order = .colMajor ∨ other.order = .rowMajor)
    (hsp : self.pixStrides.length = self.pixShape.length)
    (hop : other.pixStrides.length = other.pixShape.length)
    (hshape : self.shape .subPt = other.shape .subPt) (h0 : (0 : Int) ∈ self.shape .subPt) :
    assign srt self other src dst = .ok dst := by
  have key : ∀ l : FieldLayout, (l.order = .colMajor ∨ l.order = .rowMajor) →
      l.pixStrides.length = l.pixShape.length →
      ∃ s, l.strides .subPt 1 = .ok s ∧ s.length = (l.shape .subPt).length := by
    intro l ho hl
    rcases ho with h | h
    · exact ⟨_, l.strides_col h, by simp [shape_subPt, accStrides_length, hl]⟩
    · exact ⟨_, l.strides_row h, by simp [shape_subPt, accStrides_length, hl]⟩
  obtain ⟨ms, h1, h2⟩ := key self hso hsp
  obtain ⟨os, k1, k2⟩ := key other hoo hop
  simp only [assign, hshape, ne_eq, not_true_eq_false, if_false, h1, k1, Res.ok_bind]
  exact C08_empty srt _ os ms src dst k2 (by rw [h2, hshape]) (by rw [← hshape]; exact h0)

example : (0 : Int) ∈ FieldLayout.shape ⟨.colMajor, [2], 1, [3, 0], [1, 3], 0⟩ .subPt := by decide

/-! ## C50 -/

/-- **C50** If two fields are reported to have the same memory layout and have the same number of
components, their strides in both views are equal: each element tuple has the same offset in
both. -/
theorem C50_same_layout (l m : FieldLayout) (h : l.sameMemoryLayout m = .ok true)
    (hn : l.nbComp = m.nbComp) (hb : l.pixShape = m.pixShape → l.pixStrides = m.pixStrides →
      l.nbBuf = m.nbBuf) (it : IterUnit) :
    l.pixShape = m.pixShape ∧ l.nbSub = m.nbSub ∧ l.strides it 1 = m.strides it 1 := by
  unfold sameMemoryLayout at h
  split at h
  · rename_i hc
    obtain ⟨h1, h2, h3⟩ := hc
    split at h
    · rename_i hs
      rw [Res.bind_eq_ok] at h
      obtain ⟨s, hs1, h⟩ := h
      rw [Res.bind_eq_ok] at h
      obtain ⟨t, ht1, h⟩ := h
      have hst : s = t := by simpa using h
      subst hst
      refine ⟨h1, hs, ?_⟩
      have hbb := hb h1 h3
      simp only [strides, subPtStrides, hs1, ht1, Res.ok_bind, nbDof, hn, hs, hbb, pixelsStrides, h3, h2]
    · cases h
  · cases h

example : FieldLayout.sameMemoryLayout ⟨.colMajor, [2, 3], 2, [6], [1], 6⟩
    ⟨.colMajor, [2, 3], 2, [6], [1], 6⟩ = .ok true := by decide

/-- The hypothesis on the number of components is needed: fields with 3 and with 4 components are
reported to have the same layout. -/
theorem C50_components_needed :
    ∃ l m : FieldLayout, l.sameMemoryLayout m = .ok true ∧ l.strides .subPt 1 ≠ m.strides .subPt 1 :=
  ⟨⟨.colMajor, [3], 2, [6], [1], 6⟩, ⟨.colMajor, [4], 2, [6], [1], 6⟩, by decide, by decide⟩

/-- **C50** The relation is symmetric and holds between a field and itself. -/
theorem C50_refl_symm (l m : FieldLayout) :
    ((l.order = .colMajor ∨ l.order = .rowMajor) → l.sameMemoryLayout l = .ok true) ∧
    (l.sameMemoryLayout m = .ok true → m.sameMemoryLayout l = .ok true) := by
  constructor
  · intro ho
    rcases ho with h | h <;> simp [sameMemoryLayout, componentsStrides, h]
  · intro h
    unfold sameMemoryLayout at h ⊢
    split at h
    · rename_i hc
      split at h
      · rename_i hs
        rw [Res.bind_eq_ok] at h
        obtain ⟨s, hs1, h⟩ := h
        rw [Res.bind_eq_ok] at h
        obtain ⟨t, ht1, h⟩ := h
        have hst : s = t := by simpa using h
        subst hst
        rw [if_pos ⟨hc.1.symm, hc.2.1.symm, hc.2.2.symm⟩, if_pos hs.symm, hs1, ht1]
        simp
      · cases h
    · cases h

end Verif.Props
