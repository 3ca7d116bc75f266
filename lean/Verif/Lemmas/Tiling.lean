import Verif.Props.Grid
/-
Helper lemmas: strides which number the points of a box without gap or overlap are dense along the
order of their size.
-/
namespace Verif.Props
open Verif Verif.Ccoord

/-- The sums of a number below `acc` and an address are all numbers below `acc * size`, each once. -/
structure Tiles (acc : Int) (nb ss : List Int) : Prop where
  inj : ∀ p p' c c', 0 ≤ p → p < acc → 0 ≤ p' → p' < acc → InBox nb c → InBox nb c' →
    p + dot ss c = p' + dot ss c' → p = p' ∧ c = c'
  range : ∀ p c, 0 ≤ p → p < acc → InBox nb c → 0 ≤ p + dot ss c ∧ p + dot ss c < acc * nb.prod
  onto : ∀ i, 0 ≤ i → i < acc * nb.prod → ∃ p c, 0 ≤ p ∧ p < acc ∧ InBox nb c ∧ p + dot ss c = i

theorem inBox_zeros {nb : List Int} (h : Pos nb) : InBox nb (List.replicate nb.length 0) := by
  induction nb with
  | nil => simp [InBox]
  | cons n nb ih =>
    have := Pos.cons.1 h
    simp only [List.length_cons, List.replicate_succ, InBox]
    exact ⟨le_refl 0, this.1, ih this.2⟩

theorem dot_zeros (ss : List Int) (n : Nat) : dot ss (List.replicate n 0) = 0 := by
  induction n generalizing ss with
  | zero => cases ss <;> simp [dot]
  | succ n ih => cases ss with
    | nil => simp [dot]
    | cons s ss => simp [List.replicate_succ, dot, ih]

/-- An address which is not that of the origin is at least the smallest stride. -/
theorem dot_ge {nb ss c : List Int} {s : Int} (hs : 0 ≤ s) (hm : ∀ x ∈ ss, s ≤ x) (hc : InBox nb c)
    (hl : ss.length = nb.length) : c = List.replicate nb.length 0 ∨ s ≤ dot ss c := by
  induction nb generalizing ss c with
  | nil => cases c <;> simp_all [InBox]
  | cons n nb ih =>
    cases c with
    | nil => simp [InBox] at hc
    | cons x c =>
      cases ss with
      | nil => simp at hl
      | cons t ss =>
        simp only [InBox] at hc
        have ht : s ≤ t := hm t (by simp)
        have h0 : 0 ≤ dot ss c := by
          rcases ih (ss := ss) (fun x hx => hm x (List.mem_cons_of_mem _ hx)) hc.2.2 (by simpa using hl) with h | h
          · rw [h, dot_zeros]
          · omega
        simp only [dot]
        rcases eq_or_lt_of_le hc.1 with h | h
        · rcases ih (ss := ss) (fun x hx => hm x (List.mem_cons_of_mem _ hx)) hc.2.2 (by simpa using hl) with h' | h'
          · left; rw [← h, h']; simp [List.replicate_succ]
          · right; rw [← h]; omega
        · right
          nlinarith

theorem fastDense_of_tiles {acc : Int} {nb ss : List Int} (h : Tiles acc nb ss) (ha : 0 < acc)
    (hp : ∀ n ∈ nb, 2 ≤ n) (hl : ss.length = nb.length) (hs : ss.Pairwise (· ≤ ·)) :
    FastDense acc nb ss := by
  induction nb generalizing acc ss with
  | nil =>
    have : ss = [] := List.length_eq_zero_iff.1 hl
    subst this; simp [FastDense]
  | cons n nb ih =>
    cases ss with
    | nil => simp at hl
    | cons s ss =>
      have hl' : ss.length = nb.length := by simpa using hl
      have hn : 2 ≤ n := hp n (by simp)
      have hp' : ∀ m ∈ nb, 2 ≤ m := fun m hm => hp m (by simp [hm])
      have hpos : Pos nb := fun m hm => by have := hp' m hm; omega
      have hprod : 0 < nb.prod := prod_pos_of_pos hpos
      have hz := inBox_zeros hpos
      have hz1 : InBox (n :: nb) (0 :: List.replicate nb.length 0) := ⟨le_refl 0, by omega, hz⟩
      have hu : InBox (n :: nb) (1 :: List.replicate nb.length 0) := ⟨by omega, by omega, hz⟩
      have hss := List.pairwise_cons.1 hs
      have hs0 : 0 ≤ s := by
        have := (h.range 0 _ (le_refl 0) ha hu).1
        simpa [dot, dot_zeros] using this
      have hge : acc ≤ s := by
        by_contra hc
        have := h.inj s 0 _ _ hs0 (by omega) (le_refl 0) ha hz1 hu (by simp [dot, dot_zeros])
        have := (List.cons.inj this.2).1
        omega
      have hle : s ≤ acc := by
        have hlt : acc < acc * (n :: nb).prod := by
          have : 2 ≤ n * nb.prod := by nlinarith
          rw [List.prod_cons]; nlinarith
        obtain ⟨p, c, h0, hpa, hc, he⟩ := h.onto acc (by omega) hlt
        rcases dot_ge (s := s) hs0 (by
          intro x hx
          rcases List.mem_cons.1 hx with rfl | hx
          · exact le_refl _
          · exact hss.1 x hx) hc hl with h' | h'
        · rw [h', dot_zeros] at he; omega
        · omega
      have hsa : s = acc := by omega
      subst hsa
      refine ⟨rfl, ih ⟨?_, ?_, ?_⟩ (by nlinarith) hp' hl' hss.2⟩
      · intro p p' c c' h0 h1 h0' h1' hc hc' he
        have hb : InBox (n :: nb) (p / s :: c) :=
          ⟨Int.ediv_nonneg h0 hs0, Int.ediv_lt_of_lt_mul ha (by linarith [mul_comm s n]), hc⟩
        have hb' : InBox (n :: nb) (p' / s :: c') :=
          ⟨Int.ediv_nonneg h0' hs0, Int.ediv_lt_of_lt_mul ha (by linarith [mul_comm s n]), hc'⟩
        have e1 := Int.emod_add_mul_ediv p s
        have e2 := Int.emod_add_mul_ediv p' s
        have := h.inj (p % s) (p' % s) _ _ (Int.emod_nonneg _ (by omega)) (Int.emod_lt_of_pos _ ha)
          (Int.emod_nonneg _ (by omega)) (Int.emod_lt_of_pos _ ha) hb hb' (by
            simp only [dot]; linarith)
        have h2 := List.cons.inj this.2
        refine ⟨?_, h2.2⟩
        rw [← e1, ← e2, this.1, h2.1]
      · intro p c h0 h1 hc
        have hb : InBox (n :: nb) (p / s :: c) :=
          ⟨Int.ediv_nonneg h0 hs0, Int.ediv_lt_of_lt_mul ha (by linarith [mul_comm s n]), hc⟩
        have e1 := Int.emod_add_mul_ediv p s
        have := h.range (p % s) _ (Int.emod_nonneg _ (by omega)) (Int.emod_lt_of_pos _ ha) hb
        simp only [dot, List.prod_cons] at this
        constructor
        · linarith [this.1]
        · linarith [this.2, mul_assoc s n nb.prod]
      · intro i h0 h1
        obtain ⟨p, c, h2, h3, h4, h5⟩ := h.onto i h0 (by
          rw [List.prod_cons]; linarith [mul_assoc s n nb.prod])
        cases c with
        | nil => simp [InBox] at h4
        | cons x c =>
          simp only [InBox] at h4
          refine ⟨p + s * x, c, by nlinarith, by nlinarith, h4.2.2, ?_⟩
          simp only [dot] at h5
          linarith

/-- Strides which number the pixels of a grid without axes of one point are found contiguous. -/
theorem dense_of_numbersAll {srt : SortFn} (hsrt : SortSpec srt) {nb strides : List Int}
    (hp : ∀ n ∈ nb, 2 ≤ n) (hs : strides.length = nb.length) (h : NumbersAll nb strides) :
    Dense (pick (srt (axesLt nb strides) (List.range nb.length)).reverse nb)
      (pick (srt (axesLt nb strides) (List.range nb.length)).reverse strides) := by
  have hpos : Pos nb := fun m hm => by have := hp m hm; omega
  have hperm := DynamicPixels.axes_perm hsrt nb strides nb.length
  have hsorted := (hsrt _ (List.range nb.length) (axesLt_strictWeak nb strides)).2
  generalize srt (axesLt nb strides) (List.range nb.length) = ax at hperm hsorted ⊢
  rw [pick_reverse, pick_reverse, ← fastDense_iff_dense (pick_pos hperm hpos)]
  have hun : ∀ c, InBox (pick ax nb) c → ∃ c', InBox nb c' ∧ pick ax c' = c := by
    intro c hc
    have hcl := hc.length_eq
    have hnd := perm_range_nodup hperm
    have hal : ax.length = nb.length := by simpa using hperm.length_eq
    have hcl' : c.length = ax.length := by simpa [pick] using hcl
    refine ⟨(List.range nb.length).map (fun k => c[ax.idxOf k]?.getD 0), ?_, ?_⟩
    · rw [← inBox_pick hperm (by simp)]
      convert hc using 1
      apply List.ext_getElem
      · simp [pick, hcl']
      · intro i h1 h2
        have hi : i < ax.length := by simpa [pick] using h1
        have := perm_range_lt hperm (List.getElem_mem hi)
        simp [pick, this, List.Nodup.idxOf_getElem hnd, h2]
    · apply List.ext_getElem
      · simp [pick, hcl']
      · intro i h1 h2
        have hi : i < ax.length := by simpa [pick] using h1
        have := perm_range_lt hperm (List.getElem_mem hi)
        simp [pick, this, List.Nodup.idxOf_getElem hnd, h2]
  have hdot : ∀ c, InBox nb c → dot (pick ax strides) (pick ax c) = dot strides c := by
    intro c hc
    exact dot_pick (by rw [hs]; exact hperm) (by rw [hs]; exact hc.length_eq)
  apply fastDense_of_tiles
  · constructor
    · intro p p' c c' h0 h1 h0' h1' hc hc' he
      obtain ⟨d, hd, rfl⟩ := hun c hc
      obtain ⟨d', hd', rfl⟩ := hun c' hc'
      rw [hdot d hd, hdot d' hd'] at he
      have : d = d' := h.1 d d' hd hd' (by omega)
      exact ⟨by omega, by rw [this]⟩
    · intro p c h0 h1 hc
      obtain ⟨d, hd, rfl⟩ := hun c hc
      rw [hdot d hd, pick_prod hperm]
      have := (h.2 (dot strides d)).2 ⟨d, hd, rfl⟩
      rw [nbPixels_eq_prod] at this
      omega
    · intro i h0 hi
      rw [pick_prod hperm] at hi
      obtain ⟨d, hd, he⟩ := (h.2 i).1 ⟨h0, by rw [nbPixels_eq_prod]; omega⟩
      exact ⟨0, pick ax d, le_refl 0, by omega, (inBox_pick hperm hd.length_eq).2 hd, by
        rw [hdot d hd]; omega⟩
  · omega
  · intro n hn
    simp only [pick, List.mem_map] at hn
    obtain ⟨a, ha, rfl⟩ := hn
    have := perm_range_lt hperm ha
    simp only [this, List.getElem?_eq_getElem, Option.getD_some]
    exact hp _ (List.getElem_mem this)
  · simp [pick]
  · rw [pick, List.pairwise_map]
    refine hsorted.imp ?_
    intro a b hab
    rw [axesLt_false_iff] at hab
    omega

end Verif.Props
