import Verif.Props.FieldOps
import Verif.Props.Layout

/-! # C50 for the fields of collections -/

namespace Verif.Props
open Verif Verif.Ccoord Verif.Layout Verif.Layout.FieldLayout Verif.Collection Verif.Collection.Coll

variable {α U : Type} [Inhabited α] [DecidableEq U]

/-- The strides and the number of entries determine the shape. -/
theorem accStrides_inj : ∀ {xs ys : List Int} {a : Int}, a ≠ 0 → (∀ n ∈ xs, 0 < n) →
    accStrides a xs = accStrides a ys → getSize xs = getSize ys → xs = ys
  | [], [], _, _, _, _, _ => rfl
  | [], _ :: _, _, _, _, h, _ => by simp [accStrides] at h
  | _ :: _, [], _, _, _, h, _ => by simp [accStrides] at h
  | [x], [y], a, ha, hp, h, hs => by simpa [getSize] using hs
  | [x], y :: z :: ys, a, ha, hp, h, hs => by simp [accStrides] at h
  | x :: z :: xs, [y], a, ha, hp, h, hs => by simp [accStrides] at h
  | x :: z :: xs, y :: w :: ys, a, ha, hp, h, hs => by
    simp only [accStrides, List.cons.injEq, true_and] at h
    obtain ⟨h1, h2⟩ := h
    have hx : 0 < x := hp x (by simp)
    have hxy : x = y := mul_left_cancel₀ ha h1
    subst hxy
    have := accStrides_inj (xs := z :: xs) (ys := w :: ys) (a := a * x) (mul_ne_zero ha hx.ne')
      (fun n hn => hp n (by simp [hn])) (by simp only [accStrides, List.cons.injEq, true_and]; exact h2)
      (by
        have e : x * getSize (z :: xs) = x * getSize (w :: ys) := by simpa [getSize] using hs
        exact mul_left_cancel₀ hx.ne' e)
    rw [this]

theorem getSize_append (xs ys : List Int) : getSize (xs ++ ys) = getSize xs * getSize ys := by
  induction xs with
  | nil => simp [getSize]
  | cons x xs ih => simp [getSize, ih, mul_assoc]

theorem getSize_reverse (xs : List Int) : getSize xs.reverse = getSize xs := by
  induction xs with
  | nil => rfl
  | cons x xs ih => simp [getSize, getSize_append, ih, mul_comm]

/-- The size of the buffer of an initialised collection follows from the shape and the strides of its
pixels. -/
theorem nbBuf_eq {srt : SortFn} {c : Coll α U} (h : PixInv srt c) (hi : c.initialised = true)
    (f : Field α U) : (c.layout f).nbBuf = bufferSizeAux 0 (c.layout f).pixShape (c.layout f).pixStrides := by
  cases hg : c.global with
  | true =>
    obtain ⟨-, -, -, -, h5, -⟩ := h.glob hg hi
    unfold getBufferSize at h5
    split at h5
    · cases h5
    · simp only [Res.ok.injEq] at h5
      simp [Coll.layout, hg, h5]
  | false =>
    obtain ⟨h1, h2⟩ := h.loc hg hi
    simp [Coll.layout, hg, h1, h2, bufferSizeAux]

/-- **C50** For fields of any two initialised collections, global or local, after any programs: if
`has_same_memory_layout` answers true and the fields have the same (positive) components count, the whole
layout is the same: components, sub-points, pixels, strides in both views for all element sizes, and the size
of the buffer.  So each element tuple exists in one exactly if it does in the other, and has the same offset. -/
theorem C50_collections {α' U' : Type} [Inhabited α'] [DecidableEq U'] {srt : SortFn} {g g' : Bool} {dim dim' : Int}
    {order order' : StorageOrder} {sub sub' : SMap String Int} {c0 c : Coll α U} {d0 d : Coll α' U'}
    (hc : mk' g dim order sub = .ok c0) (hd : mk' g' dim' order' sub' = .ok d0)
    {ops : List (Op α U)} {ops' : List (Op α' U')} (hr : c0.run srt ops = some c) (hr' : d0.run srt ops' = some d)
    (hi : c.initialised = true) (hi' : d.initialised = true) {f : Field α U} {f' : Field α' U'}
    (hp : ∀ n ∈ f.shape, 0 < n) (hn : getSize f.shape = getSize f'.shape)
    (h : (c.layout f).sameMemoryLayout (d.layout f') = .ok true) :
    c.layout f = d.layout f' := by
  have pc : PixInv srt c := run_induct srt (PixInv srt) (mk'_pixInv srt hc) (fun d op hd _ => hd.step op) hr
  have pd : PixInv srt d := run_induct srt (PixInv srt) (mk'_pixInv srt hd) (fun d op hd _ => hd.step op) hr'
  have b1 := nbBuf_eq pc hi f
  have b2 := nbBuf_eq pd hi' f'
  have e1 : (c.layout f).comps = f.shape := rfl
  have e2 : (d.layout f').comps = f'.shape := rfl
  rw [← e1] at hp hn
  rw [← e2] at hn
  generalize c.layout f = l at *
  generalize d.layout f' = m at *
  unfold sameMemoryLayout at h
  split at h
  · rename_i hcnd
    obtain ⟨h1, h2, h3⟩ := hcnd
    split at h
    · rename_i hs
      rw [Res.bind_eq_ok] at h
      obtain ⟨s, hs1, h⟩ := h
      rw [Res.bind_eq_ok] at h
      obtain ⟨t, ht1, h⟩ := h
      have hst : s = t := by simpa using h
      subst hst
      have hcomps : l.comps = m.comps := by
        unfold componentsStrides at hs1 ht1
        rw [← h2] at ht1
        cases ho : l.order with
        | colMajor =>
          simp only [ho, Res.ok.injEq] at hs1 ht1
          exact accStrides_inj one_ne_zero hp (hs1.trans ht1.symm) hn
        | rowMajor =>
          simp only [ho, Res.ok.injEq] at hs1 ht1
          exact List.reverse_injective (accStrides_inj one_ne_zero (fun n hn => hp n (List.mem_reverse.1 hn))
            (List.reverse_injective (hs1.trans ht1.symm)) (by rw [getSize_reverse, getSize_reverse]; exact hn))
        | _ => simp [ho] at hs1
      have hbuf : l.nbBuf = m.nbBuf := by rw [b1, b2, h1, h3]
      cases l
      cases m
      simp_all
    · cases h
  · cases h

/-- The hypotheses are met by two fields of one collection after the program of the examples, and the answer is
not always true. -/
example : exAfter.initialised = true ∧ (∃ f g h, exAfter.fields.find "strain" = some f ∧
    exAfter.fields.find "stress" = some g ∧ exAfter.fields.find "flag" = some h ∧ (∀ n ∈ f.shape, 0 < n) ∧
    getSize f.shape = getSize g.shape ∧ (exAfter.layout f).sameMemoryLayout (exAfter.layout g) = .ok true ∧
    (exAfter.layout f).sameMemoryLayout (exAfter.layout h) = .ok false) := by
  refine ⟨by decide +kernel, ?_⟩
  exact ⟨(exAfter.fields.find "strain").get (by decide +kernel), (exAfter.fields.find "stress").get (by decide +kernel),
    (exAfter.fields.find "flag").get (by decide +kernel), by decide +kernel, by decide +kernel, by decide +kernel,
    by decide +kernel, by decide +kernel, by decide +kernel, by decide +kernel⟩

end Verif.Props
