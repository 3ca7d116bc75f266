import Mathlib.Algebra.BigOperators.Ring.Finset
import Mathlib.Tactic.Ring
import Verif.Model.Gradient
import Verif.Spec.Gradient
import Verif.Props.Grid
/-
Lemmas on the gradient operator's loops.
-/
namespace Verif.GradOp

open Verif.Ccoord
open scoped BigOperators

variable {α σ : Type}

/-- A fold with outcomes. -/
def foldR {β : Type} (f : β → σ → Res σ) : List β → σ → Res σ
  | [], s => .ok s
  | b :: bs, s => do let s' ← f b s; foldR f bs s'

theorem foldR_append {β : Type} (f : β → σ → Res σ) (l₁ l₂ : List β) (s : σ) :
    foldR f (l₁ ++ l₂) s = (foldR f l₁ s).bind (foldR f l₂) := by
  induction l₁ generalizing s with
  | nil => rfl
  | cons b bs ih =>
    simp only [List.cons_append, foldR]
    show Res.bind _ _ = Res.bind (Res.bind _ _) _
    cases f b s with
    | ok s' => exact ih s'
    | throw e => rfl
    | ub => rfl

/-- The accesses made for one pixel: pixel number, corner number, number of the shifted pixel. -/
def offTriples (p : DynamicPixels) (id : Int) (base : List Int) :
    List (Nat × List Int) → Res (List (Int × Nat × Int))
  | [] => .ok []
  | (index, offset) :: rest => do
      let cc ← shiftCcoord base offset p.nb
      let k ← p.getIndex cc
      let t ← offTriples p id base rest
      pure ((id, index, k) :: t)

/-- All accesses in order. -/
def triples (p : DynamicPixels) (offs : List (Nat × List Int)) :
    List (Int × List Int) → Res (List (Int × Nat × Int))
  | [] => .ok []
  | (id, base) :: rest => do
      let t ← offTriples p id base offs
      let t' ← triples p offs rest
      pure (t ++ t')

theorem offsetLoop_ok {p : DynamicPixels} {id : Int} {base : List Int}
    {body : Int → Nat → Int → σ → Res σ} {offs : List (Nat × List Int)} {s s' : σ} :
    offsetLoop p base (body id) offs s = .ok s' ↔
      ∃ T, offTriples p id base offs = .ok T ∧
        foldR (fun t s => body t.1 t.2.1 t.2.2 s) T s = .ok s' := by
  induction offs generalizing s with
  | nil => simp [offsetLoop, offTriples, foldR]
  | cons x rest ih =>
    obtain ⟨index, offset⟩ := x
    simp only [offsetLoop, offTriples, Res.bind_eq_ok, Res.pure_eq]
    constructor
    · rintro ⟨cc, h1, k, h2, s1, h3, h4⟩
      obtain ⟨T, hT, hf⟩ := ih.1 h4
      refine ⟨(id, index, k) :: T, ⟨cc, h1, k, h2, T, hT, rfl⟩, ?_⟩
      simp only [foldR, h3, Res.ok_bind, hf]
    · rintro ⟨T, ⟨cc, h1, k, h2, T', hT, e⟩, hf⟩
      cases e
      simp only [foldR, Res.bind_eq_ok] at hf
      obtain ⟨s1, h3, h4⟩ := hf
      exact ⟨cc, h1, k, h2, s1, h3, ih.2 ⟨T', hT, h4⟩⟩

theorem pixelLoop_ok {p : DynamicPixels} {body : Int → Nat → Int → σ → Res σ}
    {offs : List (Nat × List Int)} {pixels : List (Int × List Int)} {s s' : σ} :
    pixelLoop p offs body pixels s = .ok s' ↔
      ∃ T, triples p offs pixels = .ok T ∧
        foldR (fun t s => body t.1 t.2.1 t.2.2 s) T s = .ok s' := by
  induction pixels generalizing s with
  | nil => simp [pixelLoop, triples, foldR]
  | cons x rest ih =>
    obtain ⟨id, base⟩ := x
    simp only [pixelLoop, triples, Res.bind_eq_ok, Res.pure_eq]
    constructor
    · rintro ⟨s1, h1, h2⟩
      obtain ⟨T, hT, hf⟩ := offsetLoop_ok.1 h1
      obtain ⟨T', hT', hf'⟩ := ih.1 h2
      refine ⟨T ++ T', ⟨T, hT, T', hT', rfl⟩, ?_⟩
      rw [foldR_append, hf]; exact hf'
    · rintro ⟨T, ⟨T1, h1, T2, h2, e⟩, hf⟩
      cases e
      rw [foldR_append] at hf
      cases hs : foldR (fun t s => body t.1 t.2.1 t.2.2 s) T1 s with
      | ok s1 =>
        rw [hs] at hf
        exact ⟨s1, offsetLoop_ok.2 ⟨T1, h1, hs⟩, ih.2 ⟨T2, h2, hf⟩⟩
      | throw e => rw [hs] at hf; cases hf
      | ub => rw [hs] at hf; cases hf

/-- What one access contributes to the gradient. -/
def gradTerm [CommRing α] (op : GradOp α) (u : Nat → Nat → Nat → α) (i r c : Nat)
    (t : Int × Nat × Int) : α :=
  if (i : Int) = t.1 then
    ∑ j ∈ Finset.range op.nbPixNodes, u t.2.2.toNat r j * op.B c (t.2.1 * op.nbPixNodes + j)
  else 0

/-- What one access contributes to the transpose. -/
def transTerm [CommRing α] (op : GradOp α) (s : Nat → Nat → Nat → α) (w : Int → α) (k r j : Nat)
    (t : Int × Nat × Int) : α :=
  if (k : Int) = t.2.2 then
    ∑ c ∈ Finset.range op.nbGrad, (s t.1.toNat r c * w t.1) * op.B c (t.2.1 * op.nbPixNodes + j)
  else 0

/-- All accesses stay inside the two fields. -/
def InRange (nbPixelField nbShifted : Nat) (T : List (Int × Nat × Int)) : Prop :=
  ∀ t ∈ T, (0 ≤ t.1 ∧ t.1 < (nbPixelField : Int)) ∧ (0 ≤ t.2.2 ∧ t.2.2 < (nbShifted : Int))

theorem gradFold_ok [CommRing α] {op : GradOp α} {a : α} {nodal : GField α}
    {T : List (Int × Nat × Int)} {q q' : GField α} :
    foldR (fun t s => op.gradBody a nodal t.1 t.2.1 t.2.2 s) T q = .ok q' ↔
      InRange q.nb nodal.nb T ∧
        q' = { q with val := fun i r c => q.val i r c + a * (T.map (op.gradTerm nodal.val i r c)).sum } := by
  induction T generalizing q with
  | nil => simp [foldR, InRange, eq_comm]
  | cons t T ih =>
    simp only [foldR, Res.bind_eq_ok, ih]
    simp only [gradBody, GField.getAt, Res.bind_eq_ok]
    by_cases h1 : 0 ≤ t.2.2 ∧ t.2.2 < (nodal.nb : Int)
    · by_cases h2 : 0 ≤ t.1 ∧ t.1 < (q.nb : Int)
      · simp only [h1, and_self, if_true, GField.addAt, h2, Res.ok.injEq, exists_eq_left']
        simp only [InRange, List.forall_mem_cons, h1, h2, and_self, true_and]
        refine and_congr_right fun _ => ?_
        have : (fun (i r c : Nat) => (if (i : Int) = t.1 then q.val i r c + ∑ j ∈ Finset.range op.nbPixNodes,
              a * nodal.val t.2.2.toNat r j * op.B c (t.2.1 * op.nbPixNodes + j) else q.val i r c) +
                a * (T.map (op.gradTerm nodal.val i r c)).sum) =
            fun i r c => q.val i r c + a * ((t :: T).map (op.gradTerm nodal.val i r c)).sum := by
          funext i r c
          simp only [List.map_cons, List.sum_cons, gradTerm]
          split
          · rw [mul_add, Finset.mul_sum, ← add_assoc]
            simp only [mul_assoc]
          · rw [zero_add]
        rw [this]
      · constructor
        · rintro ⟨q1, ⟨u, hu, h⟩, -⟩
          simp only [GField.addAt, h2, if_false] at h
          cases h
        · rintro ⟨h, -⟩
          exact absurd (h t (by simp)).1 h2
    · constructor
      · rintro ⟨q1, ⟨u, hu, h⟩, -⟩
        simp only [h1, if_false] at hu
        cases hu
      · rintro ⟨h, -⟩
        exact absurd (h t (by simp)).2 h1

/-- All weights read exist. -/
def WeightsExist [CommRing α] (op : GradOp α) (weights : List α) (T : List (Int × Nat × Int)) : Prop :=
  ∀ t ∈ T, op.nbPixelQuad ≠ 0 ∧ (Int.tmod t.1 op.nbPixelQuad).toNat < weights.length

/-- The weight used for the quadrature points of a pixel. -/
def pixelWeight [CommRing α] (op : GradOp α) (weights : List α) (id : Int) : α :=
  (weights[(Int.tmod id op.nbPixelQuad).toNat]?).getD 0

theorem transFold_ok [CommRing α] {op : GradOp α} {a : α} {quad : GField α} {weights : List α}
    {T : List (Int × Nat × Int)} {q q' : GField α} :
    foldR (fun t s => op.transBody a quad weights t.1 t.2.1 t.2.2 s) T q = .ok q' ↔
      (InRange quad.nb q.nb T ∧ op.WeightsExist weights T) ∧
        q' = { q with val := fun k r j => q.val k r j +
          a * (T.map (op.transTerm quad.val (op.pixelWeight weights) k r j)).sum } := by
  induction T generalizing q with
  | nil => simp [foldR, InRange, WeightsExist, eq_comm]
  | cons t T ih =>
    simp only [foldR, Res.bind_eq_ok, ih]
    simp only [transBody, GField.getAt, Res.bind_eq_ok]
    by_cases h1 : 0 ≤ t.1 ∧ t.1 < (quad.nb : Int)
    · by_cases h0 : op.nbPixelQuad = 0
      · constructor
        · rintro ⟨q1, ⟨u, hu, h⟩, -⟩
          simp only [h0, if_true] at h; cases h
        · rintro ⟨⟨-, h⟩, -⟩
          exact absurd h0 (h t (by simp)).1
      · by_cases hw : (Int.tmod t.1 op.nbPixelQuad).toNat < weights.length
        · have hat : at! weights (Int.tmod t.1 op.nbPixelQuad).toNat = .ok (op.pixelWeight weights t.1) := by
            rw [at!_eq_ok]
            simp only [pixelWeight, List.getElem?_eq_getElem hw, Option.getD_some]
            exact hw
          by_cases h2 : 0 ≤ t.2.2 ∧ t.2.2 < (q.nb : Int)
          · simp only [h1, and_self, if_true, if_false, GField.addAt, h2, h0, Res.ok.injEq,
              exists_eq_left', hat, Res.ok_bind]
            simp only [InRange, WeightsExist, List.forall_mem_cons, h1, h2, and_self, true_and, h0, hw, ne_eq,
              not_false_eq_true]
            refine and_congr_right fun _ => ?_
            have : (fun (k r j : Nat) => (if (k : Int) = t.2.2 then q.val k r j + ∑ c ∈ Finset.range op.nbGrad,
                  a * (quad.val t.1.toNat r c * op.pixelWeight weights t.1) *
                    op.B c (t.2.1 * op.nbPixNodes + j) else q.val k r j) +
                    a * (T.map (op.transTerm quad.val (op.pixelWeight weights) k r j)).sum) =
                fun k r j => q.val k r j +
                  a * ((t :: T).map (op.transTerm quad.val (op.pixelWeight weights) k r j)).sum := by
              funext k r j
              simp only [List.map_cons, List.sum_cons, transTerm]
              split
              · rw [mul_add, Finset.mul_sum, ← add_assoc]
                simp only [mul_assoc]
              · rw [zero_add]
            rw [this]
          · constructor
            · rintro ⟨q1, ⟨u, hu, h⟩, -⟩
              simp only [h0, if_false, hat, Res.ok_bind, GField.addAt, h2] at h
              cases h
            · rintro ⟨⟨h, -⟩, -⟩
              exact absurd (h t (by simp)).2 h2
        · constructor
          · rintro ⟨q1, ⟨u, hu, h⟩, -⟩
            simp only [h0, if_false, Res.bind_eq_ok] at h
            obtain ⟨w, hw', -⟩ := h
            simp only [at!, List.getElem?_eq_none (Nat.le_of_not_lt hw)] at hw'
            cases hw'
          · rintro ⟨⟨-, h⟩, -⟩
            exact absurd (h t (by simp)).2 hw
    · constructor
      · rintro ⟨q1, ⟨u, hu, h⟩, -⟩
        simp only [h1, if_false] at hu
        cases hu
      · rintro ⟨⟨h, -⟩, -⟩
        exact absurd (h t (by simp)).1 h1

/-- The accesses of one application. -/
def visits (srt : SortFn) (dim : Nat) (p : DynamicPixels) : Res (List (Int × Nat × Int)) := do
  let offs ← offsets srt dim
  let pixels ← p.enumerate
  triples p offs pixels

/-- The checks at the beginning of both functions. -/
def Fits (op : GradOp α) (nodal quad : GField α) : Prop :=
  quad.isGlobal = true ∧ nodal.isGlobal = true ∧ quad.comps = op.dim * nodal.comps ∧
    nodal.comps ≠ 0 ∧ nodal.subPts = op.nbPixNodes ∧ quad.subPts = op.nbPixelQuad

theorem gradientIncrement_ok [CommRing α] {srt : SortFn} {op : GradOp α} {p : DynamicPixels}
    {nodal q q' : GField α} {a : α} :
    op.gradientIncrement srt p nodal a q = .ok q' ↔
      op.Fits nodal q ∧ ∃ T, visits srt op.dim p = .ok T ∧ InRange q.nb nodal.nb T ∧
        q' = { q with val := fun i r c => q.val i r c + a * (T.map (op.gradTerm nodal.val i r c)).sum } := by
  unfold gradientIncrement Fits
  by_cases h1 : q.isGlobal = false
  · simp [h1]
  by_cases h2 : nodal.isGlobal = false
  · simp [h1, h2]
  by_cases h3 : q.comps = op.dim * nodal.comps
  swap
  · simp [h1, h2, h3]
  by_cases h4 : nodal.comps = 0 ∨ nodal.subPts ≠ op.nbPixNodes ∨ q.subPts ≠ op.nbPixelQuad
  · rw [if_neg h1, if_neg h2, if_neg (not_not.2 h3), if_pos h4]
    constructor
    · intro h; cases h
    · rintro ⟨⟨-, -, -, h5, h6, h7⟩, -⟩
      exact absurd h4 (by simp [h5, h6, h7])
  · rw [if_neg h1, if_neg h2, if_neg (not_not.2 h3), if_neg h4]
    simp only [not_or, not_not] at h4
    simp only [Bool.not_eq_false] at h1 h2
    simp only [Res.bind_eq_ok, visits, pixelLoop_ok, gradFold_ok]
    constructor
    · rintro ⟨offs, ho, pix, hp, T, hT, hr, e⟩
      exact ⟨⟨h1, h2, h3, h4⟩, T, ⟨offs, ho, pix, hp, hT⟩, hr, e⟩
    · rintro ⟨-, T, ⟨offs, ho, pix, hp, hT⟩, hr, e⟩
      exact ⟨offs, ho, pix, hp, T, hT, hr, e⟩

/-- The weights in use: ones if none are given. -/
def theWeights [CommRing α] (op : GradOp α) (weights : List α) : List α :=
  if weights.length = 0 then List.replicate op.nbPixelQuad 1 else weights

theorem transposeIncrement_ok [CommRing α] {srt : SortFn} {op : GradOp α} {p : DynamicPixels}
    {quad q q' : GField α} {a : α} {weights : List α} :
    op.transposeIncrement srt p quad a q weights = .ok q' ↔
      op.Fits q quad ∧ ∃ T, visits srt op.dim p = .ok T ∧
        (InRange quad.nb q.nb T ∧ op.WeightsExist (op.theWeights weights) T) ∧
        q' = { q with val := fun k r j => q.val k r j +
          a * (T.map (op.transTerm quad.val (op.pixelWeight (op.theWeights weights)) k r j)).sum } := by
  unfold transposeIncrement Fits
  simp only []
  by_cases h1 : quad.isGlobal = false
  · simp [h1]
  by_cases h2 : q.isGlobal = false
  · simp [h1, h2]
  by_cases h3 : quad.comps = op.dim * q.comps
  swap
  · simp [h1, h2, h3]
  by_cases h4 : q.comps = 0 ∨ q.subPts ≠ op.nbPixNodes ∨ quad.subPts ≠ op.nbPixelQuad
  · rw [if_neg h1, if_neg h2, if_neg (not_not.2 h3), if_pos h4]
    constructor
    · intro h; cases h
    · rintro ⟨⟨-, -, -, h5, h6, h7⟩, -⟩
      exact absurd h4 (by simp [h5, h6, h7])
  · rw [if_neg h1, if_neg h2, if_neg (not_not.2 h3), if_neg h4]
    simp only [not_or, not_not] at h4
    simp only [Bool.not_eq_false] at h1 h2
    simp only [Res.bind_eq_ok, visits, pixelLoop_ok, transFold_ok]
    constructor
    · rintro ⟨offs, ho, pix, hp, T, hT, hr, e⟩
      exact ⟨⟨h1, h2, h3, h4⟩, T, ⟨offs, ho, pix, hp, hT⟩, hr, e⟩
    · rintro ⟨-, T, ⟨offs, ho, pix, hp, hT⟩, hr, e⟩
      exact ⟨offs, ho, pix, hp, T, hT, hr, e⟩

end Verif.GradOp
