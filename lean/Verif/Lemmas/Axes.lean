import Verif.Lemmas.Ccoord
import Mathlib.Data.List.Perm.Basic
import Mathlib.Data.List.Nodup
/-
Helper lemmas on the axes order, on decoding along an axes order and on the contiguity test.
-/
namespace Verif.Ccoord

/-! ### The comparator and the sort -/

theorem axesLt_iff {shape strides : List Int} {a b : Nat} :
    axesLt shape strides a b = true ↔
      (strides[a]?.getD 0 = 1 ∧ strides[b]?.getD 0 = 1 ∧ shape[a]?.getD 0 < shape[b]?.getD 0) ∨
        strides[a]?.getD 0 < strides[b]?.getD 0 := by
  simp [axesLt, and_assoc]

theorem axesLt_false_iff {shape strides : List Int} {a b : Nat} :
    axesLt shape strides a b = false ↔
      ¬ ((strides[a]?.getD 0 = 1 ∧ strides[b]?.getD 0 = 1 ∧ shape[a]?.getD 0 < shape[b]?.getD 0) ∨
        strides[a]?.getD 0 < strides[b]?.getD 0) := by
  rw [← axesLt_iff]; simp

theorem axesLt_strictWeak (shape strides : List Int) : StrictWeak (axesLt shape strides) where
  irrefl a := by rw [axesLt_false_iff]; omega
  trans a b c := by simp only [axesLt_iff]; omega
  incomp a b c := by simp only [axesLt_false_iff]; omega

theorem insertBy_perm (lt : Nat → Nat → Bool) (a : Nat) (l : List Nat) :
    (insertBy lt a l).Perm (a :: l) := by
  induction l with
  | nil => simp [insertBy]
  | cons b l ih =>
    simp only [insertBy]
    split
    · exact (List.Perm.cons b ih).trans (List.Perm.swap a b l)
    · exact List.Perm.refl _

theorem stableSort_perm (lt : Nat → Nat → Bool) (l : List Nat) : (stableSort lt l).Perm l := by
  induction l with
  | nil => simp [stableSort]
  | cons a l ih =>
    simp only [stableSort, List.foldr_cons] at ih ⊢
    exact (insertBy_perm lt a _).trans (List.Perm.cons a ih)

theorem StrictWeak.asymm {lt : Nat → Nat → Bool} (h : StrictWeak lt) {a b : Nat}
    (hab : lt a b = true) : lt b a = false := by
  cases hba : lt b a
  · rfl
  · have := h.trans a b a hab hba
    rw [h.irrefl] at this; cases this

theorem StrictWeak.negTrans {lt : Nat → Nat → Bool} (h : StrictWeak lt) {a b c : Nat}
    (hab : lt a b = false) (hbc : lt b c = false) : lt a c = false := by
  by_contra hac
  have hac : lt a c = true := by simpa using hac
  cases hba : lt b a
  · cases hcb : lt c b
    · have := h.incomp a b c ⟨hab, hba⟩ ⟨hbc, hcb⟩
      rw [this.1] at hac; cases hac
    · have := h.trans a c b hac hcb
      rw [this] at hab; cases hab
  · have := h.trans b a c hba hac
    rw [this] at hbc; cases hbc

/-- Sorted, and equivalent elements in increasing order. -/
def StableRel (lt : Nat → Nat → Bool) (a b : Nat) : Prop :=
  lt b a = false ∧ (lt a b = false → a < b)

theorem insertBy_stable {lt : Nat → Nat → Bool} (h : StrictWeak lt) {a : Nat} {l : List Nat}
    (hl : l.Pairwise (StableRel lt)) (ha : ∀ b ∈ l, a < b) :
    (insertBy lt a l).Pairwise (StableRel lt) := by
  induction l with
  | nil => simp [insertBy]
  | cons b l ih =>
    simp only [insertBy]
    have hb := List.pairwise_cons.1 hl
    have hab : a < b := ha b (by simp)
    split
    · rename_i hlt
      refine List.pairwise_cons.2 ⟨?_, ih hb.2 (fun x hx => ha x (by simp [hx]))⟩
      intro x hx
      rcases List.mem_cons.1 ((insertBy_perm lt a l).mem_iff.1 hx) with rfl | hx
      · exact ⟨h.asymm hlt, fun hf => by rw [hlt] at hf; cases hf⟩
      · exact hb.1 x hx
    · rename_i hlt
      have hlt : lt b a = false := by simpa using hlt
      refine List.pairwise_cons.2 ⟨?_, hl⟩
      intro x hx
      refine ⟨?_, fun _ => ha x hx⟩
      rcases List.mem_cons.1 hx with rfl | hx
      · exact hlt
      · exact h.negTrans (hb.1 x hx).1 hlt

theorem stableSort_stable {lt : Nat → Nat → Bool} (h : StrictWeak lt) {l : List Nat}
    (hl : l.Pairwise (· < ·)) : (stableSort lt l).Pairwise (StableRel lt) := by
  induction l with
  | nil => simp [stableSort]
  | cons a l ih =>
    have ha := List.pairwise_cons.1 hl
    simp only [stableSort, List.foldr_cons]
    refine insertBy_stable h (ih ha.2) ?_
    intro b hb
    exact ha.1 b ((stableSort_perm lt l).mem_iff.1 hb)

theorem insertBy_sorted {lt : Nat → Nat → Bool} (h : StrictWeak lt) {a : Nat} {l : List Nat}
    (hl : l.Pairwise (fun a b => lt b a = false)) :
    (insertBy lt a l).Pairwise (fun a b => lt b a = false) := by
  induction l with
  | nil => simp [insertBy]
  | cons b l ih =>
    simp only [insertBy]
    have hb := List.pairwise_cons.1 hl
    split
    · rename_i hlt
      refine List.pairwise_cons.2 ⟨?_, ih hb.2⟩
      intro x hx
      rcases List.mem_cons.1 ((insertBy_perm lt a l).mem_iff.1 hx) with rfl | hx
      · exact h.asymm hlt
      · exact hb.1 x hx
    · rename_i hlt
      have hlt : lt b a = false := by simpa using hlt
      refine List.pairwise_cons.2 ⟨?_, hl⟩
      intro x hx
      rcases List.mem_cons.1 hx with rfl | hx
      · exact hlt
      · exact h.negTrans (hb.1 x hx) hlt

theorem stableSort_spec : SortSpec stableSort := by
  intro lt l h
  refine ⟨stableSort_perm lt l, ?_⟩
  induction l with
  | nil => simp [stableSort]
  | cons a l ih =>
    simp only [stableSort, List.foldr_cons] at ih ⊢
    exact insertBy_sorted h ih

/-! ### Decoding along an axes order -/

theorem ccoordLoop_spec {strides : List Int} {as : List Nat} (hnd : as.Nodup) {index : Int}
    {r : List Int} (hs : ∀ a ∈ as, a < strides.length) (hr : ∀ a ∈ as, a < r.length)
    (hz : ∀ a ∈ as, strides[a]?.getD 0 ≠ 0) :
    ∃ r', ccoordLoop strides as index r = .ok r' ∧ r'.length = r.length ∧
      (∀ b, b ∉ as → r'[b]? = r[b]?) ∧ pick as r' = digits (pick as strides) index := by
  induction as generalizing index r with
  | nil => exact ⟨r, by simp [ccoordLoop, pick, digits]⟩
  | cons a as ih =>
    have hnd' := List.nodup_cons.1 hnd
    have hal : a < strides.length := hs a (by simp)
    have har : a < r.length := hr a (by simp)
    have hsa : strides[a]?.getD 0 = strides[a] := by simp [hal]
    have hza : strides[a] ≠ 0 := by rw [← hsa]; exact hz a (by simp)
    obtain ⟨r', h1, h2, h3, h4⟩ := ih hnd'.2 (index := index - Int.tdiv index strides[a] * strides[a])
      (r := r.set a (Int.tdiv index strides[a])) (fun b hb => hs b (by simp [hb]))
      (fun b hb => by simpa using hr b (by simp [hb])) (fun b hb => hz b (by simp [hb]))
    refine ⟨r', ?_, by simpa using h2, ?_, ?_⟩
    · simp only [ccoordLoop, at!_eq_ok hal, Res.ok_bind, hza, if_false, h1,
        show ¬ r.length ≤ a from by omega]
    · intro b hb
      simp only [List.mem_cons, not_or] at hb
      rw [h3 b hb.2, List.getElem?_set_ne (Ne.symm hb.1)]
    · simp only [pick, List.map_cons, digits] at h4 ⊢
      rw [h4, hsa]
      congr 1
      rw [h3 a hnd'.1]
      simp [har]

theorem pick_inj {ax : List Nat} {l l' : List Int} (hp : ax.Perm (List.range l.length))
    (hl : l'.length = l.length) (h : pick ax l = pick ax l') : l = l' := by
  have key : ∀ a ∈ ax, l[a]?.getD 0 = l'[a]?.getD 0 := by
    simpa [pick, List.map_inj_left] using h
  apply List.ext_getElem hl.symm
  intro i h1 h2
  have := key i (hp.mem_iff.2 (List.mem_range.2 h1))
  simpa [h1, h2] using this

/-- The slowest-first view of an axes order. -/
theorem reverse_perm {ax : List Nat} {n : Nat} (hp : ax.Perm (List.range n)) :
    ax.reverse.Perm (List.range n) := (List.reverse_perm ax).trans hp

theorem perm_range_nodup {ax : List Nat} {n : Nat} (hp : ax.Perm (List.range n)) : ax.Nodup :=
  hp.nodup_iff.2 List.nodup_range

theorem perm_range_lt {ax : List Nat} {n : Nat} (hp : ax.Perm (List.range n)) {a : Nat}
    (h : a ∈ ax) : a < n := List.mem_range.1 (hp.mem_iff.1 h)

theorem stride_ne_zero_of_pick {bx : List Nat} {strides nb : List Int}
    (h : SD (pick bx nb) (pick bx strides)) : ∀ a ∈ bx, strides[a]?.getD 0 ≠ 0 := by
  intro a ha
  have := h.stride_pos (strides[a]?.getD 0) (by simp only [pick, List.mem_map]; exact ⟨a, ha, rfl⟩)
  omega

/-- Offsets from the origin. -/
def sub : List Int → List Int → List Int := List.zipWith (· - ·)

theorem indexSum_eq_dot {ss loc cc : List Int} (h1 : loc.length = ss.length)
    (h2 : cc.length = ss.length) : indexSum ss loc cc = dot ss (sub cc loc) := by
  induction ss generalizing loc cc with
  | nil => simp [indexSum, dot]
  | cons s ss ih =>
    cases loc with
    | nil => simp at h1
    | cons l loc =>
      cases cc with
      | nil => simp at h2
      | cons c cc =>
        simp only [List.length_cons, Nat.add_right_cancel_iff] at h1 h2
        simp only [sub] at ih
        simp [indexSum, dot, sub, ih h1 h2]

theorem inBoxAt_iff {nb loc cc : List Int} (hl : loc.length = nb.length)
    (hc : cc.length = nb.length) : InBoxAt nb loc cc ↔ InBox nb (sub cc loc) := by
  induction nb generalizing loc cc with
  | nil =>
    have h1 : loc = [] := List.length_eq_zero_iff.1 hl
    have h2 : cc = [] := List.length_eq_zero_iff.1 hc
    subst h1 h2; simp [InBoxAt, InBox, sub]
  | cons n nb ih =>
    cases loc with
    | nil => simp at hl
    | cons l loc =>
      cases cc with
      | nil => simp at hc
      | cons c cc =>
        simp only [List.length_cons, Nat.add_right_cancel_iff] at hl hc
        have := ih hl hc
        simp only [sub] at this
        simp only [InBoxAt, InBox, sub, List.zipWith_cons_cons, this]
        constructor
        · rintro ⟨a, b, c⟩; exact ⟨by omega, by omega, c⟩
        · rintro ⟨a, b, c⟩; exact ⟨by omega, by omega, c⟩

theorem sub_add {cc loc : List Int} (h : cc.length = loc.length) :
    List.zipWith (· + ·) (sub cc loc) loc = cc := by
  induction cc generalizing loc with
  | nil => simp [sub]
  | cons c cc ih =>
    cases loc with
    | nil => simp at h
    | cons l loc =>
      have := ih (loc := loc) (by simpa using h)
      simp only [sub] at this
      simp [sub, this]

theorem add_sub' {r loc : List Int} (h : r.length = loc.length) :
    sub (List.zipWith (· + ·) r loc) loc = r := by
  induction r generalizing loc with
  | nil => simp [sub]
  | cons c cc ih =>
    cases loc with
    | nil => simp at h
    | cons l loc =>
      have := ih (loc := loc) (by simpa using h)
      simp only [sub] at this
      simp [sub, this]

/-- Decoding along a decreasing order of axes finds the coordinate of an address. -/
theorem getCcoordFromAxesOrder_dot {nb loc strides : List Int} {ax : List Nat}
    (hp : ax.Perm (List.range nb.length)) (hs : strides.length = nb.length)
    (hsd : SD (pick ax.reverse nb) (pick ax.reverse strides)) {cc : List Int}
    (hc : InBoxAt nb loc cc) :
    getCcoordFromAxesOrder nb loc strides ax (dot strides (sub cc loc)) = .ok cc := by
  have hlen := InBoxAt.lengths hc
  have hpr := reverse_perm hp
  have hsubl : (sub cc loc).length = nb.length := by simp [sub, hlen]
  obtain ⟨r', h1, h2, h3, h4⟩ := ccoordLoop_spec (strides := strides) (perm_range_nodup hpr)
    (index := dot strides (sub cc loc)) (r := List.replicate nb.length 0)
    (fun a ha => by rw [hs]; exact perm_range_lt hpr ha)
    (fun a ha => by simpa using perm_range_lt hpr ha) (stride_ne_zero_of_pick hsd)
  have hbox : InBox (pick ax.reverse nb) (pick ax.reverse (sub cc loc)) :=
    (inBox_pick hpr hsubl).2 ((inBoxAt_iff hlen.1 hlen.2).1 hc)
  have hdig := hsd.digits_dot hbox
  rw [dot_pick (by rw [hs]; exact hpr) (by omega)] at hdig
  rw [hdig] at h4
  have hr' : r'.length = nb.length := by simpa using h2
  have : r' = sub cc loc := pick_inj (ax := ax.reverse) (by rw [hr']; exact hpr) (by omega) h4
  simp only [getCcoordFromAxesOrder, h1, Res.ok_bind, Res.pure_eq, this]
  rw [sub_add (by omega)]

/-- Decoding along a dense order of axes gives for each number below the size the coordinate with
that address. -/
theorem getCcoordFromAxesOrder_index {nb loc strides : List Int} {ax : List Nat}
    (hp : ax.Perm (List.range nb.length)) (hs : strides.length = nb.length)
    (hl : loc.length = nb.length)
    (hd : Dense (pick ax.reverse nb) (pick ax.reverse strides)) {i : Int} (h0 : 0 ≤ i)
    (hi : i < nb.prod) :
    ∃ cc, getCcoordFromAxesOrder nb loc strides ax i = .ok cc ∧ InBoxAt nb loc cc ∧
      dot strides (sub cc loc) = i := by
  have hpr := reverse_perm hp
  obtain ⟨r', h1, h2, h3, h4⟩ := ccoordLoop_spec (strides := strides) (perm_range_nodup hpr)
    (index := i) (r := List.replicate nb.length 0)
    (fun a ha => by rw [hs]; exact perm_range_lt hpr ha)
    (fun a ha => by simpa using perm_range_lt hpr ha) (stride_ne_zero_of_pick hd.sd)
  have hr' : r'.length = nb.length := by simpa using h2
  have hdd := hd.dot_digits h0 (by rw [pick_prod hpr]; exact hi)
  rw [← h4] at hdd
  have hcl : (List.zipWith (· + ·) r' loc).length = nb.length := by simp [hr', hl]
  refine ⟨List.zipWith (· + ·) r' loc, ?_, ?_, ?_⟩
  · simp only [getCcoordFromAxesOrder, h1, Res.ok_bind, Res.pure_eq]
  · rw [inBoxAt_iff hl hcl, add_sub' (by omega)]
    exact (inBox_pick hpr hr').1 hdd.1
  · rw [add_sub' (by omega), ← hdd.2, dot_pick (by rw [hs]; exact hpr) (by omega)]

/-! ### The contiguity loop -/

/-- Fastest axis first: each stride is the product of the faster extents times `acc`. -/
def FastDense : Int → List Int → List Int → Prop
  | _, [], [] => True
  | acc, n :: nb, s :: ss => s = acc ∧ FastDense (acc * n) nb ss
  | _, _, _ => False

theorem contiguousLoop_eq {nb strides : List Int} {as : List Nat} {st : Int} {acc : Bool}
    (h1 : ∀ a ∈ as, a < nb.length) (h2 : ∀ a ∈ as, a < strides.length) :
    ∃ b, contiguousLoop nb strides as st acc = .ok b ∧
      (b = true ↔ acc = true ∧ FastDense st (pick as nb) (pick as strides)) := by
  induction as generalizing st acc with
  | nil => exact ⟨acc, by simp [contiguousLoop, pick, FastDense]⟩
  | cons a as ih =>
    have ha1 : a < nb.length := h1 a (by simp)
    have ha2 : a < strides.length := h2 a (by simp)
    obtain ⟨b, hb, hiff⟩ := ih (st := st * nb[a]) (acc := acc && strides[a] == st)
      (fun x hx => h1 x (by simp [hx])) (fun x hx => h2 x (by simp [hx]))
    refine ⟨b, ?_, ?_⟩
    · simp only [contiguousLoop, at!_eq_ok ha1, at!_eq_ok ha2, Res.ok_bind, hb]
    · rw [hiff]
      simp [pick, FastDense, ha1, ha2, and_assoc]

theorem dense_append {nb nb' ss ss' : List Int} (hl : ss.length = nb.length)
    (h : Dense (nb ++ nb') (ss ++ ss')) : Dense nb' ss' := by
  induction nb generalizing ss with
  | nil =>
    have : ss = [] := List.length_eq_zero_iff.1 hl
    subst this; simpa using h
  | cons n nb ih =>
    cases ss with
    | nil => simp at hl
    | cons s ss => exact ih (by simpa using hl) (by simpa [Dense] using h.2.2)

theorem maxIdx_append {nb nb' ss ss' : List Int} (hl : ss.length = nb.length) :
    maxIdx (nb ++ nb') (ss ++ ss') = maxIdx nb ss + maxIdx nb' ss' := by
  induction nb generalizing ss with
  | nil =>
    have : ss = [] := List.length_eq_zero_iff.1 hl
    subst this; simp [maxIdx]
  | cons n nb ih =>
    cases ss with
    | nil => simp at hl
    | cons s ss =>
      have := ih (ss := ss) (by simpa using hl)
      simp only [List.cons_append, maxIdx, this]; ring

theorem FastDense.length_eq {acc : Int} {nb ss : List Int} (h : FastDense acc nb ss) :
    ss.length = nb.length := by
  induction nb generalizing acc ss with
  | nil => cases ss <;> simp_all [FastDense]
  | cons n nb ih =>
    cases ss with
    | nil => simp [FastDense] at h
    | cons s ss => simp [ih h.2]

/-- Slow-first form of a fast-first dense list, on top of a dense list of size `acc`. -/
theorem dense_of_fastDense {acc : Int} {nb ss nb0 ss0 : List Int} (hp : Pos nb)
    (h : FastDense acc nb ss) (h0 : Dense nb0 ss0) (ha : maxIdx nb0 ss0 + 1 = acc) :
    Dense (nb.reverse ++ nb0) (ss.reverse ++ ss0) := by
  induction nb generalizing acc ss nb0 ss0 with
  | nil => cases ss <;> simp_all [FastDense]
  | cons n nb ih =>
    cases ss with
    | nil => simp [FastDense] at h
    | cons s ss =>
      simp only [FastDense] at h
      simp only [List.reverse_cons, List.append_assoc, List.cons_append, List.nil_append]
      refine ih (Pos.cons.1 hp).2 h.2 (nb0 := n :: nb0) (ss0 := s :: ss0) ?_ ?_
      · exact ⟨(Pos.cons.1 hp).1, by omega, h0⟩
      · simp only [maxIdx, h.1, ← ha]; ring

theorem fastDense_append {acc : Int} {nb nb' ss ss' : List Int} (hl : ss.length = nb.length) :
    FastDense acc (nb ++ nb') (ss ++ ss') ↔ FastDense acc nb ss ∧ FastDense (acc * nb.prod) nb' ss' := by
  induction nb generalizing acc ss with
  | nil =>
    have : ss = [] := List.length_eq_zero_iff.1 hl
    subst this; simp [FastDense]
  | cons n nb ih =>
    cases ss with
    | nil => simp at hl
    | cons s ss =>
      have hl' : ss.length = nb.length := by simpa using hl
      simp [FastDense, ih hl', mul_assoc, and_assoc]

/-- Dense slow-first lists are dense fast-first lists read backwards. -/
theorem fastDense_of_dense {nb ss : List Int} (h : Dense nb ss) :
    FastDense 1 nb.reverse ss.reverse := by
  induction nb generalizing ss with
  | nil => cases ss <;> simp_all [FastDense, Dense]
  | cons n nb ih =>
    cases ss with
    | nil => simp [Dense] at h
    | cons s ss =>
      have h' : Dense nb ss := h.2.2
      simp only [List.reverse_cons]
      rw [fastDense_append (by simp [h'.sd.length_eq])]
      refine ⟨ih h', ?_⟩
      simp only [FastDense, and_true, one_mul, List.prod_reverse]
      rw [← h'.size]; exact h.2.1

theorem fastDense_iff_dense {nb ss : List Int} (hp : Pos nb) :
    FastDense 1 nb ss ↔ Dense nb.reverse ss.reverse := by
  constructor
  · intro h
    have := dense_of_fastDense hp h (nb0 := []) (ss0 := []) trivial (by simp [maxIdx])
    simpa using this
  · intro h
    have := fastDense_of_dense h
    simpa using this

theorem pick_reverse (ax : List Nat) (l : List Int) : pick ax.reverse l = (pick ax l).reverse := by
  simp [pick]

theorem pick_pos {ax : List Nat} {nb : List Int} (hp : ax.Perm (List.range nb.length))
    (h : Pos nb) : Pos (pick ax nb) := by
  intro n hn
  simp only [pick, List.mem_map] at hn
  obtain ⟨a, ha, rfl⟩ := hn
  have hal := perm_range_lt hp ha
  simp only [List.getElem?_eq_getElem hal, Option.getD_some]
  exact h _ (List.getElem_mem hal)

/-- The contiguity test looks for denseness along the axes order. -/
theorem isBufferContiguous_iff {srt : SortFn} (hsrt : SortSpec srt) {nb strides : List Int}
    (hs : strides.length = nb.length) (hp : Pos nb) :
    ∃ b, isBufferContiguous srt nb strides = .ok b ∧
      (b = true ↔ Dense (pick (srt (axesLt nb strides) (List.range nb.length)).reverse nb)
        (pick (srt (axesLt nb strides) (List.range nb.length)).reverse strides)) := by
  have hperm := (hsrt _ (List.range nb.length) (axesLt_strictWeak nb strides)).1
  by_cases h0 : nb.length = 0
  · refine ⟨true, by simp [isBufferContiguous, h0], ?_⟩
    have : nb = [] := List.length_eq_zero_iff.1 h0
    subst this
    have h1 : srt (axesLt [] strides) (List.range ([] : List Int).length) = [] := by
      have := hperm.length_eq
      simpa using this
    rw [h1]
    simp [pick, Dense]
  · have hsz : getSize nb ≠ 0 := by
      rw [getSize_eq_prod]; have := prod_pos_of_pos hp; omega
    obtain ⟨b, hb, hiff⟩ := contiguousLoop_eq (nb := nb) (strides := strides)
      (as := srt (axesLt nb strides) (List.range nb.length)) (st := 1) (acc := true)
      (fun a ha => perm_range_lt hperm ha) (fun a ha => by rw [hs]; exact perm_range_lt hperm ha)
    refine ⟨b, ?_, ?_⟩
    · simp [isBufferContiguous, h0, hsz, hs, computeAxesOrder, hb]
    · rw [hiff, pick_reverse, pick_reverse, ← fastDense_iff_dense (pick_pos hperm hp)]
      simp

/-! ### Which axes orders are dense -/

/-- Weight of an axis in the largest address. -/
def wt (nb strides : List Int) (a : Nat) : Int := (nb[a]?.getD 0 - 1) * strides[a]?.getD 0

theorem maxIdx_pick (bx : List Nat) (nb strides : List Int) :
    maxIdx (pick bx nb) (pick bx strides) = (bx.map (wt nb strides)).sum := by
  induction bx with
  | nil => simp [pick, maxIdx]
  | cons a bx ih => simp only [pick, List.map_cons] at ih ⊢; simp [maxIdx, ih, wt]

theorem dense_pick_iff {bx : List Nat} {nb strides : List Int} :
    Dense (pick bx nb) (pick bx strides) ↔
      (∀ a ∈ bx, 0 < nb[a]?.getD 0) ∧
      ∀ pre a post, bx = pre ++ a :: post →
        strides[a]?.getD 0 = (post.map (wt nb strides)).sum + 1 := by
  induction bx with
  | nil => simp [pick, Dense]
  | cons a bx ih =>
    have hm := maxIdx_pick bx nb strides
    simp only [pick, List.map_cons] at ih hm ⊢
    simp only [Dense, ih, hm]
    constructor
    · rintro ⟨h1, h2, h3, h4⟩
      refine ⟨by simpa using ⟨h1, h3⟩, ?_⟩
      intro pre b post he
      cases pre with
      | nil => simp at he; obtain ⟨rfl, rfl⟩ := he; exact h2
      | cons c pre => simp at he; exact h4 pre b post he.2
    · rintro ⟨h1, h2⟩
      refine ⟨h1 a (by simp), h2 [] a bx rfl, fun b hb => h1 b (by simp [hb]), ?_⟩
      intro pre b post he
      exact h2 (a :: pre) b post (by simp [he])

/-- Restricting a sum of weights to the axes with more than one point. -/
theorem sum_wt_filter (nb strides : List Int) (l : List Nat) (h : ∀ a ∈ l, 0 < nb[a]?.getD 0) :
    (l.map (wt nb strides)).sum =
      ((l.filter (fun a => decide (1 < nb[a]?.getD 0))).map (wt nb strides)).sum := by
  induction l with
  | nil => simp
  | cons a l ih =>
    have ha := h a (by simp)
    have := ih (fun b hb => h b (by simp [hb]))
    by_cases h1 : 1 < nb[a]?.getD 0
    · simp [h1, this]
    · have h2 : nb[a]?.getD 0 = 1 := by omega
      simp only [List.map_cons, List.sum_cons, List.filter_cons, h1, decide_false,
        Bool.false_eq_true, if_false, this]
      simp [wt, h2]

/-- If two orders of the same axes agree on which axes with more than one point are faster than
which axes, denseness carries over. -/
theorem dense_transfer {bx cx : List Nat} {nb strides : List Int} (hb : bx.Nodup)
    (hperm : cx.Perm bx) (hd : Dense (pick bx nb) (pick bx strides))
    (hag : ∀ pre a post pre' post', bx = pre ++ a :: post → cx = pre' ++ a :: post' →
      ∀ b, 1 < nb[b]?.getD 0 → (b ∈ post ↔ b ∈ post')) :
    Dense (pick cx nb) (pick cx strides) := by
  rw [dense_pick_iff] at hd ⊢
  have hc : cx.Nodup := hperm.nodup_iff.2 hb
  refine ⟨fun a ha => hd.1 a (hperm.mem_iff.1 ha), ?_⟩
  intro pre' a post' he
  have hab : a ∈ bx := hperm.mem_iff.1 (by rw [he]; simp)
  obtain ⟨pre, post, he'⟩ := List.append_of_mem hab
  rw [hd.2 pre a post he']
  congr 1
  have h1 : ∀ x ∈ post, 0 < nb[x]?.getD 0 := fun x hx => hd.1 x (by rw [he']; simp [hx])
  have h2 : ∀ x ∈ post', 0 < nb[x]?.getD 0 := fun x hx =>
    hd.1 x (hperm.mem_iff.1 (by rw [he]; simp [hx]))
  rw [sum_wt_filter nb strides post h1, sum_wt_filter nb strides post' h2]
  refine List.Perm.sum_eq (List.Perm.map _ ?_)
  have hn1 : post.Nodup := by
    rw [he'] at hb; exact (List.nodup_cons.1 (List.nodup_append.1 hb).2.1).2
  have hn2 : post'.Nodup := by
    rw [he] at hc; exact (List.nodup_cons.1 (List.nodup_append.1 hc).2.1).2
  rw [List.perm_ext_iff_of_nodup (hn1.filter _) (hn2.filter _)]
  intro b
  simp only [List.mem_filter, decide_eq_true_eq]
  constructor
  · rintro ⟨h, hb1⟩; exact ⟨(hag pre a post pre' post' he' he b hb1).1 h, hb1⟩
  · rintro ⟨h, hb1⟩; exact ⟨(hag pre a post pre' post' he' he b hb1).2 h, hb1⟩

theorem split_unique {l pre post pre' post' : List Nat} {a : Nat} (hn : l.Nodup)
    (h : l = pre ++ a :: post) (h' : l = pre' ++ a :: post') : pre = pre' ∧ post = post' := by
  have hpre : a ∉ pre := by
    rw [h] at hn; intro hm
    exact (List.nodup_append.1 hn).2.2 a hm a (by simp) rfl
  have hpre' : a ∉ pre' := by
    rw [h'] at hn; intro hm
    exact (List.nodup_append.1 hn).2.2 a hm a (by simp) rfl
  rw [h] at h'
  have := (List.append_eq_append_iff.1 h')
  rcases this with ⟨x, h1, h2⟩ | ⟨x, h1, h2⟩
  · cases x with
    | nil => simp at h1 h2; exact ⟨h1.symm, h2⟩
    | cons y x =>
      simp at h2
      exfalso; apply hpre'; rw [h1, ← h2.1]; simp
  · cases x with
    | nil => simp at h1 h2; exact ⟨h1, h2.symm⟩
    | cons y x =>
      simp at h2
      exfalso; apply hpre; rw [h1, ← h2.1]; simp

/-- In a dense order the stride of an axis is at least the extent times the stride of any faster
axis. -/
theorem dense_le {bx : List Nat} {nb strides : List Int}
    (hd : Dense (pick bx nb) (pick bx strides)) {pre post : List Nat} {a b : Nat}
    (he : bx = pre ++ a :: post) (hb : b ∈ post) :
    nb[b]?.getD 0 * strides[b]?.getD 0 ≤ strides[a]?.getD 0 := by
  have hpos : ∀ x ∈ bx, 0 < strides[x]?.getD 0 := fun x hx =>
    hd.sd.stride_pos _ (by simp only [pick, List.mem_map]; exact ⟨x, hx, rfl⟩)
  rw [dense_pick_iff] at hd
  obtain ⟨p1, p2, hp⟩ := List.append_of_mem hb
  have h1 := hd.2 pre a post he
  have h2 := hd.2 (pre ++ a :: p1) b p2 (by rw [he, hp]; simp)
  have hw : 0 ≤ (p1.map (wt nb strides)).sum := by
    apply List.sum_nonneg
    intro x hx
    obtain ⟨y, hy, rfl⟩ := List.mem_map.1 hx
    have hm : y ∈ bx := by rw [he, hp]; simp [hy]
    have := hd.1 y hm
    have := hpos y hm
    unfold wt
    exact mul_nonneg (by omega) (by omega)
  rw [hp] at h1
  simp only [List.map_append, List.map_cons, List.sum_append, List.sum_cons] at h1
  have hwb : wt nb strides b = nb[b]?.getD 0 * strides[b]?.getD 0 - strides[b]?.getD 0 := by
    unfold wt; ring
  rw [hwb] at h1
  linarith

theorem dense_stride_pos {bx : List Nat} {nb strides : List Int}
    (hd : Dense (pick bx nb) (pick bx strides)) {x : Nat} (hx : x ∈ bx) :
    0 < strides[x]?.getD 0 :=
  hd.sd.stride_pos _ (by simp only [pick, List.mem_map]; exact ⟨x, hx, rfl⟩)

/-- Sorting the axes of a dense layout gives a dense order, unless the sort puts an axis with one
point below an axis with more points and the same stride. -/
theorem dense_of_sorted {bx cx : List Nat} {nb strides : List Int} (hb : bx.Nodup)
    (hperm : cx.Perm bx) (hd : Dense (pick bx nb) (pick bx strides))
    (hs : cx.Pairwise (fun a b => axesLt nb strides a b = false))
    (ht : ∀ pre' a post' b, cx = pre' ++ a :: post' → b ∈ post' →
      strides[a]?.getD 0 = strides[b]?.getD 0 → strides[a]?.getD 0 ≠ 1 → nb[a]?.getD 0 = 1 →
      1 < nb[b]?.getD 0 → False) :
    Dense (pick cx nb) (pick cx strides) := by
  refine dense_transfer hb hperm hd ?_
  intro pre a post pre' post' he he' b hb1
  have hc : cx.Nodup := hperm.nodup_iff.2 hb
  have hsort := hs
  rw [he'] at hsort
  have hsort2 := List.pairwise_append.1 hsort
  have hsort3 := List.pairwise_cons.1 hsort2.2.1
  constructor
  · intro hpost
    have h1 := dense_le hd he hpost
    have hbm : b ∈ bx := by rw [he]; simp [hpost]
    have h2 := dense_stride_pos hd hbm
    have hlt : axesLt nb strides b a = true := by
      rw [axesLt_iff]; right; nlinarith
    by_contra hnot
    have hbc : b ∈ cx := hperm.mem_iff.2 hbm
    rw [he'] at hbc
    rcases List.mem_append.1 hbc with h | h
    · have := hsort2.2.2 b h a (by simp)
      rw [hlt] at this; cases this
    · rcases List.mem_cons.1 h with rfl | h
      · rw [he] at hb
        exact (List.nodup_cons.1 (List.nodup_append.1 hb).2.1).1 hpost
      · exact hnot h
  · intro hpost'
    by_contra hnot
    have hbm : b ∈ bx := hperm.mem_iff.1 (by rw [he']; simp [hpost'])
    have ham : a ∈ bx := by rw [he]; simp
    have hne : b ≠ a := by
      rintro rfl
      rw [he'] at hc
      exact (List.nodup_cons.1 (List.nodup_append.1 hc).2.1).1 hpost'
    have hbpre : b ∈ pre := by
      rw [he] at hbm
      rcases List.mem_append.1 hbm with h | h
      · exact h
      · rcases List.mem_cons.1 h with h | h
        · exact absurd h hne
        · exact absurd h hnot
    obtain ⟨q1, q2, hq⟩ := List.append_of_mem hbpre
    have hle := dense_le hd (pre := q1) (a := b) (post := q2 ++ a :: post) (b := a)
      (by rw [he, hq]; simp) (by simp)
    have hlt := hsort3.1 b hpost'
    rw [axesLt_false_iff] at hlt
    have hna := (dense_pick_iff.1 hd).1 a ham
    have hsa := dense_stride_pos hd ham
    push Not at hlt
    have hge : strides[a]?.getD 0 ≤ nb[a]?.getD 0 * strides[a]?.getD 0 := by nlinarith
    have heq : strides[a]?.getD 0 = strides[b]?.getD 0 := by omega
    have hn1 : nb[a]?.getD 0 = 1 := by
      by_contra hne1
      have : 2 ≤ nb[a]?.getD 0 := by omega
      nlinarith
    have hs1 : strides[a]?.getD 0 ≠ 1 := by
      intro h1
      have := hlt.1 h1 (by omega)
      omega
    exact ht pre' a post' b he' hpost' heq hs1 hn1 hb1

/-- If along the dense order no axis with one point lies between two axes with more, any sort of the
axes gives a dense order. -/
theorem dense_of_sorted_convex {bx cx : List Nat} {nb strides : List Int} (hb : bx.Nodup)
    (hperm : cx.Perm bx) (hd : Dense (pick bx nb) (pick bx strides))
    (hs : cx.Pairwise (fun a b => axesLt nb strides a b = false))
    (hconv : ∀ p b q a r c t, bx = p ++ b :: (q ++ a :: (r ++ c :: t)) → 1 < nb[b]?.getD 0 →
      1 < nb[c]?.getD 0 → 1 < nb[a]?.getD 0) :
    Dense (pick cx nb) (pick cx strides) := by
  refine dense_of_sorted hb hperm hd hs ?_
  intro pre' a post' b he' hpost' heq hs1 hn1 hb1
  have hc : cx.Nodup := hperm.nodup_iff.2 hb
  have ham : a ∈ bx := hperm.mem_iff.1 (by rw [he']; simp)
  have hbm : b ∈ bx := hperm.mem_iff.1 (by rw [he']; simp [hpost'])
  have hne : b ≠ a := by
    rintro rfl
    rw [he'] at hc
    exact (List.nodup_cons.1 (List.nodup_append.1 hc).2.1).1 hpost'
  obtain ⟨pre, post, he⟩ := List.append_of_mem ham
  have hbpre : b ∈ pre := by
    rw [he] at hbm
    rcases List.mem_append.1 hbm with h | h
    · exact h
    · rcases List.mem_cons.1 h with h | h
      · exact absurd h hne
      · have h1 := dense_le hd he h
        have h2 := dense_stride_pos hd (x := b) (by rw [he]; simp [h])
        nlinarith
  -- a faster axis with more than one point
  have hex : ∃ c ∈ post, 1 < nb[c]?.getD 0 := by
    by_contra hno
    push Not at hno
    have h1 := (dense_pick_iff.1 hd).2 pre a post he
    have hz : (post.map (wt nb strides)).sum = 0 := by
      rw [sum_wt_filter nb strides post
        (fun x hx => (dense_pick_iff.1 hd).1 x (by rw [he]; simp [hx]))]
      have : post.filter (fun a => decide (1 < nb[a]?.getD 0)) = [] := by
        rw [List.filter_eq_nil_iff]
        intro x hx
        have := hno x hx
        simp; omega
      simp [this]
    rw [hz] at h1
    exact hs1 (by simpa using h1)
  obtain ⟨c, hc1, hc2⟩ := hex
  obtain ⟨p, q, hp⟩ := List.append_of_mem hbpre
  obtain ⟨r, t, hr⟩ := List.append_of_mem hc1
  have := hconv p b q a r c t (by rw [he, hp, hr]; simp) hb1 hc2
  omega

/-! ### Default strides -/

theorem fastDense_colMajorAux (acc : Int) (nb : List Int) :
    FastDense acc nb (colMajorStridesAux acc nb) := by
  induction nb generalizing acc with
  | nil => simp [FastDense, colMajorStridesAux]
  | cons n nb ih => simp [FastDense, colMajorStridesAux, ih]

theorem colMajorStrides_length (nb : List Int) : (colMajorStrides nb).length = nb.length :=
  (fastDense_colMajorAux 1 nb).length_eq

theorem dense_colMajor {nb : List Int} (hp : Pos nb) :
    Dense nb.reverse (colMajorStrides nb).reverse :=
  (fastDense_iff_dense hp).1 (fastDense_colMajorAux 1 nb)

theorem dense_rowMajor {nb : List Int} (hp : Pos nb) : Dense nb (rowMajorStrides nb) := by
  induction nb with
  | nil => simp [Dense, rowMajorStrides]
  | cons n nb ih =>
    have h := ih (Pos.cons.1 hp).2
    refine ⟨(Pos.cons.1 hp).1, ?_, h⟩
    rw [getSize_eq_prod, ← h.size]

theorem rowMajorStrides_length (nb : List Int) : (rowMajorStrides nb).length = nb.length := by
  induction nb with
  | nil => simp [rowMajorStrides]
  | cons n nb ih => simp [rowMajorStrides, ih]

theorem dot_colMajorAux {acc : Int} {nb loc cc : List Int} (hl : loc.length = nb.length)
    (hc : cc.length = nb.length) :
    dot (colMajorStridesAux acc nb) (sub cc loc) = acc * colMajorNumber nb loc cc := by
  induction nb generalizing acc loc cc with
  | nil => simp [colMajorStridesAux, dot, colMajorNumber]
  | cons n nb ih =>
    cases loc with
    | nil => simp at hl
    | cons l loc =>
      cases cc with
      | nil => simp at hc
      | cons c cc =>
        have := ih (acc := acc * n) (loc := loc) (cc := cc) (by simpa using hl) (by simpa using hc)
        simp only [sub] at this
        simp only [colMajorStridesAux, sub, List.zipWith_cons_cons, dot, this, colMajorNumber]
        ring

theorem dot_rowMajor {nb loc cc : List Int} (hl : loc.length = nb.length)
    (hc : cc.length = nb.length) :
    dot (rowMajorStrides nb) (sub cc loc) = rowMajorNumber nb loc cc := by
  induction nb generalizing loc cc with
  | nil => simp [rowMajorStrides, dot, rowMajorNumber]
  | cons n nb ih =>
    cases loc with
    | nil => simp at hl
    | cons l loc =>
      cases cc with
      | nil => simp at hc
      | cons c cc =>
        have := ih (loc := loc) (cc := cc) (by simpa using hl) (by simpa using hc)
        simp only [sub] at this
        simp only [rowMajorStrides, sub, List.zipWith_cons_cons, dot, this, rowMajorNumber,
          getSize_eq_prod, nbPixels_eq_prod]
        ring

theorem pick_range_reverse (l : List Int) : pick (List.range l.length).reverse l = l.reverse := by
  rw [pick_reverse, pick_range]

theorem pick_range' {l : List Int} {n : Nat} (h : l.length = n) : pick (List.range n) l = l := by
  subst h; exact pick_range l

end Verif.Ccoord
