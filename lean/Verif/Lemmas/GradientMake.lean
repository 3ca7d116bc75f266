import Mathlib.Algebra.BigOperators.Ring.Finset
import Verif.Lemmas.GradientGrid
/-
Lemmas on the matrix built by the constructor of the gradient operator.
-/
namespace Verif.Ccoord.DynamicPixels

theorem forAll_inv {α β : Type} {f : α → Res β} {l : List α} {bs : List β} (h : forAll f l = .ok bs) :
    bs.length = l.length ∧ ∀ (i : Nat) (a : α), l[i]? = some a → ∃ b, bs[i]? = some b ∧ f a = .ok b := by
  induction l generalizing bs with
  | nil => cases h; simp
  | cons x l ih =>
    simp only [forAll, Res.bind_eq_ok, Res.pure_eq] at h
    obtain ⟨b, h1, bs', h2, h3⟩ := h
    cases h3
    obtain ⟨h4, h5⟩ := ih h2
    refine ⟨by simp [h4], ?_⟩
    intro i a hi
    cases i with
    | zero => simp at hi; subst hi; exact ⟨b, by simp, h1⟩
    | succ i => simpa using h5 i a (by simpa using hi)

end Verif.Ccoord.DynamicPixels

namespace Verif

open Verif.Ccoord
open scoped BigOperators

theorem flatten_getElem? {β : Type} {bs : List (List β)} {n : Nat} (h : ∀ b ∈ bs, b.length = n) (e q : Nat)
    (hq : q < n) : bs.flatten[e * n + q]? = (bs[e]?).bind (fun b => b[q]?) := by
  induction bs generalizing e with
  | nil => simp
  | cons b bs ih =>
    have hb := h b (by simp)
    cases e with
    | zero => simp [List.getElem?_append_left (by omega : q < b.length)]
    | succ e =>
      rw [List.flatten_cons, List.getElem?_append_right (by rw [hb, Nat.succ_mul]; omega), hb,
        show (e + 1) * n + q - n = e * n + q by rw [Nat.succ_mul]; omega]
      simpa using ih (fun b' hb' => h b' (by simp [hb'])) e

namespace GradOp

variable {α : Type} [CommRing α]

/-- Entry `(d, i)` of the shape function gradients of quadrature point `q` of element `e`. -/
def shapeGrad (shape : List (List (Mat α))) (q e d i : Nat) : α :=
  (((shape[q]?).bind (fun row => row[e]?)).map (fun m => m.e d i)).getD 0

/-- Node number and corner offset of the node `i` of element `e`. -/
def nodeOf (nodalPts : List (List Int × Mat Int)) (e i : Nat) : Int :=
  ((nodalPts[e]?).bind (fun np => np.1[i]?)).getD 0

/-- Corner offset of the node `i` of element `e`. -/
def cornerOf (nodalPts : List (List Int × Mat Int)) (dim e i : Nat) : List Int :=
  (List.range dim).map (fun d => ((nodalPts[e]?).map (fun np => np.2.e i d)).getD 0)

theorem make_ok {dim nbQuad nbElem nbElemNodes nbPixNodes : Nat} {shape : List (List (Mat α))}
    {nodalPts : List (List Int × Mat Int)} {op : GradOp α}
    (h : make dim nbQuad nbElem nbElemNodes nbPixNodes shape nodalPts = .ok op) :
    op.dim = dim ∧ op.nbQuad = nbQuad ∧ op.nbElem = nbElem ∧ op.nbElemNodes = nbElemNodes ∧
    op.nbPixNodes = nbPixNodes ∧
    (∀ e < nbElem, ∀ i < nbElemNodes,
      0 ≤ linearIndex (nodeOf nodalPts e i) nbPixNodes (cornerOf nodalPts dim e i) ∧
      linearIndex (nodeOf nodalPts e i) nbPixNodes (cornerOf nodalPts dim e i) <
        ((nbPixNodes * 2 ^ dim : Nat) : Int)) ∧
    (∀ e < nbElem, ∀ q < nbQuad, ∀ d < dim, ∀ j, op.B (dim * (e * nbQuad + q) + d) j =
      ∑ i ∈ Finset.range nbElemNodes, shapeGrad shape q e d i *
        if linearIndex (nodeOf nodalPts e i) nbPixNodes (cornerOf nodalPts dim e i) = (j : Int) then 1 else 0) := by
  simp only [make, Res.bind_eq_ok, Res.pure_eq] at h
  obtain ⟨blocks, hb, hop⟩ := h
  cases hop
  obtain ⟨hlen, hall⟩ := DynamicPixels.forAll_inv hb
  have key : ∀ e < nbElem, ∃ bl, blocks[e]? = some bl ∧ bl.length = nbQuad ∧
      (∀ i < nbElemNodes,
        0 ≤ linearIndex (nodeOf nodalPts e i) nbPixNodes (cornerOf nodalPts dim e i) ∧
        linearIndex (nodeOf nodalPts e i) nbPixNodes (cornerOf nodalPts dim e i) <
          ((nbPixNodes * 2 ^ dim : Nat) : Int)) ∧
      ∀ q < nbQuad, ∃ b, bl[q]? = some b ∧ ∀ d j, b d j = ∑ i ∈ Finset.range nbElemNodes, shapeGrad shape q e d i *
        if linearIndex (nodeOf nodalPts e i) nbPixNodes (cornerOf nodalPts dim e i) = (j : Int) then 1 else 0 := by
    intro e he
    obtain ⟨bl, hbl, hf⟩ := hall e e (by simp [he])
    refine ⟨bl, hbl, ?_⟩
    simp only [Res.bind_eq_ok] at hf
    obtain ⟨np, h1, h2⟩ := hf
    have h1' : nodalPts[e]? = some np := by
      unfold at? at h1
      split at h1
      · cases h1; assumption
      · cases h1
    split at h2
    · cases h2
    rename_i g1
    split at h2
    · cases h2
    rename_i g2
    split at h2
    · cases h2
    rename_i g3
    simp only [Res.bind_eq_ok] at h2
    obtain ⟨perm, h3, h4⟩ := h2
    have hcol : ∀ i, nodeColumn np.1 np.2 nbPixNodes i =
        linearIndex (nodeOf nodalPts e i) nbPixNodes (cornerOf nodalPts dim e i) := by
      intro i
      simp only [nodeColumn, nodeOf, cornerOf, h1', Option.bind_some, Option.map_some, Option.getD_some, not_not.1 g3]
    unfold permutation at h3
    split at h3
    swap
    · cases h3
    rename_i hr
    cases h3
    obtain ⟨hl, ha⟩ := DynamicPixels.forAll_inv h4
    refine ⟨by simpa using hl, ?_, ?_⟩
    · intro i hi
      have := (List.all_eq_true.1 hr) i (List.mem_range.2 (by omega))
      simp only [decide_eq_true_eq, not_not.1 g3, hcol] at this
      exact this
    · intro q hq
      obtain ⟨b, hb1, hb2⟩ := ha q q (by simp [hq])
      refine ⟨b, hb1, ?_⟩
      simp only [Res.bind_eq_ok] at hb2
      obtain ⟨row, r1, gr, r2, r3⟩ := hb2
      split at r3
      · cases r3
      split at r3
      · cases r3
      have r1' : shape[q]? = some row := by
        unfold at? at r1
        split at r1
        · cases r1; assumption
        · cases r1
      have r2' : row[e]? = some gr := by
        unfold at? at r2
        split at r2
        · cases r2; assumption
        · cases r2
      cases r3
      intro d j
      simp only [hcol, shapeGrad, r1', r2', Option.bind_some, Option.map_some, Option.getD_some]
  refine ⟨rfl, rfl, rfl, rfl, rfl, fun e he => (key e he).choose_spec.2.2.1, ?_⟩
  intro e he q hq d hd j
  have hlen' : ∀ b ∈ blocks, b.length = nbQuad := by
    intro b hb
    obtain ⟨i, hi, rfl⟩ := List.getElem_of_mem hb
    obtain ⟨bl, hbl, h5, -⟩ := key i (by simpa [hlen] using hi)
    rw [List.getElem?_eq_getElem hi] at hbl
    cases hbl; exact h5
  obtain ⟨bl, hbl, -, -, h6⟩ := key e he
  obtain ⟨b, h7, h8⟩ := h6 q hq
  have e1 : (dim * (e * nbQuad + q) + d) / dim = e * nbQuad + q := by
    rw [Nat.mul_add_div (by omega), Nat.div_eq_of_lt hd, Nat.add_zero]
  have e2 : (dim * (e * nbQuad + q) + d) % dim = d := by
    rw [Nat.mul_add_mod, Nat.mod_eq_of_lt hd]
  simp only [e1, e2, flatten_getElem? hlen' e q hq, hbl, Option.bind_some, h7]
  exact h8 d j

/-- A sum that picks one column. -/
theorem sum_pick (M n : Nat) (col : Int) (h0 : 0 ≤ col) (h1 : col < ((n * M : Nat) : Int)) (F : Nat → Nat → α) :
    (∑ o ∈ Finset.range M, ∑ j ∈ Finset.range n, F o j * if col = ((o * n + j : Nat) : Int) then 1 else 0) =
      F (col.toNat / n) (col.toNat % n) := by
  obtain ⟨c, rfl⟩ := Int.eq_ofNat_of_zero_le h0
  have hc : c < n * M := by exact_mod_cast h1
  have hn : 0 < n := Nat.pos_of_ne_zero (by rintro rfl; simp at hc)
  have ho : c / n < M := Nat.div_lt_of_lt_mul hc
  have hj : c % n < n := Nat.mod_lt _ hn
  rw [Finset.sum_eq_single (c / n), Finset.sum_eq_single (c % n)]
  · have : c = c / n * n + c % n := by rw [Nat.mul_comm]; exact (Nat.div_add_mod c n).symm
    rw [if_pos (by exact_mod_cast this), mul_one, Int.toNat_natCast]
  · intro j hj' hne
    rw [if_neg, mul_zero]
    intro he
    have he' : c = c / n * n + j := by exact_mod_cast he
    apply hne
    have hm := Nat.div_add_mod c n
    rw [Nat.mul_comm] at hm
    omega
  · intro h; exact absurd (Finset.mem_range.2 hj) h
  · intro o _ hne
    apply Finset.sum_eq_zero
    intro j hj'
    rw [if_neg, mul_zero]
    intro he
    have he' : c = o * n + j := by exact_mod_cast he
    apply hne
    rw [he', Nat.mul_comm, Nat.mul_add_div hn, Nat.div_eq_of_lt (Finset.mem_range.1 hj'), Nat.add_zero]
  · intro h; exact absurd (Finset.mem_range.2 ho) h

/-- Value of the digits. -/
theorem linearIndex_eq (ret stride : Int) (os : List Int) (hos : ∀ a ∈ os, a = 0 ∨ a = 1) :
    ∃ k : Nat, k < 2 ^ os.length ∧ corner os.length k = os ∧ linearIndex ret stride os = ret + stride * k := by
  induction os generalizing ret stride with
  | nil => exact ⟨0, by simp, rfl, by simp [linearIndex]⟩
  | cons o os ih =>
    obtain ⟨k, h1, h2, h3⟩ := ih (ret + stride * o) (stride * 2) (fun a ha => hos a (by simp [ha]))
    have ho := hos o (by simp)
    refine ⟨2 * k + o.toNat, ?_, ?_, ?_⟩
    · rw [List.length_cons, pow_succ]; omega
    · rw [List.length_cons, corner, show (2 * k + o.toNat) / 2 = k by omega, h2,
        show (((2 * k + o.toNat) % 2 : Nat) : Int) = o by omega]
    · rw [linearIndex, h3]
      have : ((2 * k + o.toNat : Nat) : Int) = 2 * k + o := by omega
      rw [this]; ring

end GradOp

end Verif
