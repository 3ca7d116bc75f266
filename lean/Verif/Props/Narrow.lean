import Verif.Model.Narrow
import Verif.Props.Collection
import Mathlib.Algebra.Order.Ring.Abs
import Mathlib.Tactic.Ring
/-
Property C86: counting the points of grids.
-/
set_option linter.unusedSectionVars false

namespace Verif.Props
open Verif Verif.Ccoord Verif.Layout Verif.Collection Verif.Collection.Coll Verif.Narrow Verif.Numpy

variable {α U : Type} [Inhabited α] [DecidableEq U]

/-! ## Lemmas -/

theorem toInt32_range (x : Int) : -(2 ^ 31) ≤ toInt32 x ∧ toInt32 x < 2 ^ 31 := by
  have h1 := Int.le_bmod (x := x) (m := 2 ^ 32) (by norm_num)
  have h2 := Int.bmod_lt (x := x) (m := 2 ^ 32) (by norm_num)
  unfold toInt32
  norm_num at h1 h2 ⊢
  omega

theorem accumulate_eq {shape : List Int} (h : ∀ n ∈ shape, -(2 ^ 32) < n ∧ n < 2 ^ 32) (x : Int) :
    accumulate (toInt32 x) shape = .ok (toInt32 (x * nbPixels shape)) := by
  induction shape generalizing x with
  | nil => simp [accumulate, nbPixels]
  | cons n shape ih =>
    have hn := h n (by simp)
    have hx := toInt32_range x
    have hr : -(2 ^ 63) ≤ toInt32 x * n ∧ toInt32 x * n < 2 ^ 63 := by
      have ha : |toInt32 x| ≤ 2 ^ 31 := abs_le.2 ⟨hx.1, by omega⟩
      have hb : |n| ≤ 2 ^ 32 - 1 := abs_le.2 ⟨by omega, by omega⟩
      have hm : |toInt32 x * n| ≤ 2 ^ 31 * (2 ^ 32 - 1) := by
        rw [abs_mul]
        exact mul_le_mul ha hb (abs_nonneg _) (by norm_num)
      have := abs_le.1 hm
      constructor <;> [have := this.1; have := this.2] <;> norm_num at this ⊢ <;> omega
    have he : toInt32 (toInt32 x * n) = toInt32 (x * n) := by
      simp only [toInt32, Int.bmod_mul_bmod]
    rw [accumulate, mulInt, if_pos hr, he]
    show accumulate (toInt32 (x * n)) shape = _
    rw [ih (fun m hm => h m (by simp [hm])), nbPixels, mul_assoc]

theorem getSize_eq_nbPixels (nb : List Int) : getSize nb = nbPixels nb := by
  induction nb with
  | nil => rfl
  | cons n nb ih => rw [getSize, nbPixels, ih]

theorem toInt32_one : toInt32 1 = 1 := by decide

theorem nbFromShape_eq {nb : List Int} (h : ∀ n ∈ nb, -(2 ^ 32) < n ∧ n < 2 ^ 32) :
    nbFromShape nb = .ok (toInt32 (nbPixels nb)) := by
  have := accumulate_eq h 1
  rwa [toInt32_one, one_mul] at this

/-- The extents of a grid whose number of points can be counted in 31 bits. -/
structure Countable (nb : List Int) : Prop where
  extents : ∀ n ∈ nb, -(2 ^ 32) < n ∧ n < 2 ^ 32
  low : -(2 ^ 31) ≤ nbPixels nb
  high : nbPixels nb < 2 ^ 31

theorem nbFromShape_of_countable {nb : List Int} (h : Countable nb) :
    nbFromShape nb = .ok (getSize nb) := by
  have h1 := h.low
  have h2 := h.high
  rw [nbFromShape_eq h.extents, toInt32_of_range (by norm_num at h1; omega) (by norm_num at h2; omega),
    getSize_eq_nbPixels]

theorem initRest_small {srt : SortFn} {c : Coll α U} {dom sub loc strides : List Int}
    (hd : ¬ getSize dom ≤ 0) (hs : ¬ getSize (subdomainOr dom sub) < 0) (hi : c.initialised = false)
    (h : getSize (subdomainOr dom sub) < 2 ^ 31) :
    initRest srt c dom (subdomainOr dom sub) loc strides = c.initGlobal srt dom sub loc strides := by
  unfold initRest initGlobal
  rw [if_neg hd]
  dsimp only
  rw [if_neg hs, hi, if_neg (show ¬ (false = true) by decide)]
  unfold pixelIndices32
  rw [if_pos h]
  rfl

theorem initGlobal32_small {srt : SortFn} {c : Coll α U} {dom sub loc strides : List Int}
    (hd : Countable dom) (hs : Countable (subdomainOr dom sub)) :
    initGlobal32 srt c dom sub loc strides = c.initGlobal srt dom sub loc strides := by
  have hh := hs.high
  rw [← getSize_eq_nbPixels] at hh
  unfold initGlobal32
  simp only [nbFromShape_of_countable hd, nbFromShape_of_countable hs]
  by_cases h1 : getSize dom ≤ 0
  · rw [if_pos h1]; unfold initGlobal; rw [if_pos h1]
  · rw [if_neg h1]
    by_cases h2 : getSize (subdomainOr dom sub) < 0
    · rw [if_pos h2]; unfold initGlobal; rw [if_neg h1]; dsimp only; rw [if_pos h2]
    · rw [if_neg h2]
      by_cases h3 : c.initialised = true
      · rw [if_pos h3]; unfold initGlobal; rw [if_neg h1]; dsimp only; rw [if_neg h2, if_pos h3]
      · rw [if_neg h3]
        exact initRest_small h1 h2 (by simpa using h3) hh

theorem subdomainOr_idem (dom sub : List Int) :
    subdomainOr dom (subdomainOr dom sub) = subdomainOr dom sub := by
  unfold subdomainOr
  by_cases h : sub.length = 0
  · simp only [h, if_true]; split <;> rfl
  · simp only [h, if_false]

theorem initGlobalOrder32_small {srt : SortFn} {c : Coll α U} {dom sub loc : List Int}
    {order : StorageOrder} (hd : Countable dom) (hs : Countable (subdomainOr dom sub)) :
    initGlobalOrder32 srt c dom sub loc order = c.initGlobalOrder srt dom sub loc order := by
  unfold initGlobalOrder32 initGlobalOrder
  dsimp only
  generalize (if (if order = StorageOrder.automatic then c.order else order) = StorageOrder.colMajor then
      dynColMajorStrides (subdomainOr dom sub) else dynRowMajorStrides (subdomainOr dom sub)) = r
  cases r with
  | throw e => rfl
  | ub => rfl
  | ok strides => exact initGlobal32_small hd (by rw [subdomainOr_idem]; exact hs)

/-! ## C86 -/

/-- A three-dimensional collection. -/
def exColl3 : Coll Int String := Coll.empty true 3 .colMajor [("pixel", 1)]

/-- **C86** What counting the points of a grid gives: their number, reduced modulo 2^32 to the range
from -2^31 to 2^31-1. -/
theorem C86_exact {nb : List Int} (h : ∀ n ∈ nb, -(2 ^ 32) < n ∧ n < 2 ^ 32) :
    ∃ r : Int, nbFromShape nb = .ok r ∧ -(2 ^ 31) ≤ r ∧ r < 2 ^ 31 ∧ (2 ^ 32 : Int) ∣ nbPixels nb - r := by
  refine ⟨_, nbFromShape_eq h, (toInt32_range _).1, (toInt32_range _).2, ?_⟩
  unfold toInt32
  have := Int.bmod_eq_self_sub_mul_bdiv (nbPixels nb) (2 ^ 32)
  rw [this]
  refine ⟨Int.bdiv (nbPixels nb) (2 ^ 32), ?_⟩
  push_cast
  ring

example : nbFromShape [2048, 2048, 2048] = .ok 0 ∧ nbFromShape [1290, 1290, 1290] = .ok 2146689000 ∧
    nbFromShape [1291, 1291, 1291] = .ok (-2143282125) := by decide

/-- The full claim **C86**: a collection can be initialised on every domain whose number of points fits
the index type, if this process holds a part of it that can be counted. -/
def C86_statement : Prop :=
  ∀ (srt : SortFn) (c : Coll Int String) (dom sub loc strides : List Int), SortSpec srt →
    (∀ n ∈ dom, 0 < n) → nbPixels dom < 2 ^ 63 → Countable (subdomainOr dom sub) →
    initGlobal32 srt c dom sub loc strides = c.initGlobal srt dom sub loc strides

/-- **C86** is false of the code: a domain of 2048 points in each of three directions is refused
wherever it is distributed, because the number of its points is counted as zero. -/
theorem C86_false : ¬ C86_statement := by
  intro h
  have := h stableSort exColl3 [2048, 2048, 2048] [2, 2, 2] [0, 0, 0] [1, 2, 4] stableSort_spec (by decide)
    (by decide) ⟨by decide, by decide, by decide⟩
  have := congrArg (fun p => p.2.initialised) this
  revert this
  decide +kernel

/-- **C86** Which domains are refused: those whose number of points leaves zero or at least 2^31 when
divided by 2^32.  Nothing changes then. -/
theorem C86_refused {srt : SortFn} {c : Coll α U} {dom sub loc strides : List Int}
    (h : ∀ n ∈ dom, 0 < n ∧ n < 2 ^ 32)
    (hm : nbPixels dom % 2 ^ 32 = 0 ∨ 2 ^ 31 ≤ nbPixels dom % 2 ^ 32) :
    initGlobal32 srt c dom sub loc strides = (.throw .fieldCollectionError, c) := by
  unfold initGlobal32
  rw [nbFromShape_eq (fun n hn => ⟨by have := h n hn; omega, (h n hn).2⟩)]
  dsimp only
  rw [if_pos]
  unfold toInt32
  rw [Int.bmod_def]
  norm_num at hm ⊢
  split <;> omega

example : nbPixels [2048, 1024, 1024] % 2 ^ 32 = 2 ^ 31 ∧ nbPixels [65536, 65536] % 2 ^ 32 = 0 := by decide

/-- **C86** On all other domains a part that can be counted is initialised as with unbounded counts. -/
theorem C86_accepted {srt : SortFn} {c : Coll α U} {dom sub loc strides : List Int}
    (h : ∀ n ∈ dom, 0 < n ∧ n < 2 ^ 32) (hs : Countable (subdomainOr dom sub))
    (hm : 0 < nbPixels dom % 2 ^ 32 ∧ nbPixels dom % 2 ^ 32 < 2 ^ 31) :
    initGlobal32 srt c dom sub loc strides = c.initGlobal srt dom sub loc strides := by
  have hpos : ¬ getSize dom ≤ 0 := by
    rw [getSize_eq_nbPixels, nbPixels_eq_prod]
    have := prod_pos_of_pos (nb := dom) (fun n hn => (h n hn).1)
    omega
  have hh := hs.high
  rw [← getSize_eq_nbPixels] at hh
  have h32 : ¬ toInt32 (nbPixels dom) ≤ 0 := by
    unfold toInt32
    rw [Int.bmod_def]
    norm_num at hm ⊢
    split <;> omega
  unfold initGlobal32
  rw [nbFromShape_eq (fun n hn => ⟨by have := h n hn; omega, (h n hn).2⟩)]
  dsimp only
  rw [if_neg h32]
  simp only [nbFromShape_of_countable hs]
  by_cases h2 : getSize (subdomainOr dom sub) < 0
  · rw [if_pos h2]; unfold initGlobal; rw [if_neg hpos]; dsimp only; rw [if_pos h2]
  · rw [if_neg h2]
    by_cases h3 : c.initialised = true
    · rw [if_pos h3]; unfold initGlobal; rw [if_neg hpos]; dsimp only; rw [if_neg h2, if_pos h3]
    · rw [if_neg h3]
      exact initRest_small hpos h2 (by simpa using h3) hh

example : 0 < nbPixels [3000, 3000, 3000] % 2 ^ 32 ∧ nbPixels [3000, 3000, 3000] % 2 ^ 32 < 2 ^ 31 ∧
    (initGlobal32 stableSort exColl3 [3000, 3000, 3000] [2, 2, 2] [0, 0, 0] [1, 2, 4]).1 = .ok () := by
  decide +kernel

/-- **C86** On a domain that passes, a process whose own part has 2^31 points or more is either refused
as well or runs into undefined behaviour: it is never initialised. -/
theorem C86_large_part {srt : SortFn} {c : Coll α U} {dom sub loc strides : List Int}
    (hs : 2 ^ 31 ≤ nbPixels (subdomainOr dom sub)) :
    (initGlobal32 srt c dom sub loc strides).1 ≠ .ok () := by
  rw [← getSize_eq_nbPixels] at hs
  unfold initGlobal32
  split
  · simp
  · simp
  · split
    · simp
    · split
      · simp
      · simp
      · split
        · simp
        · split
          · simp
          · unfold initRest pixelIndices32
            dsimp only
            rw [if_neg (show ¬ getSize (subdomainOr dom sub) < 2 ^ 31 by omega)]
            split
            · simp
            · simp
            · split
              · simp
              · simp
              · split
                · simp
                · rename_i hne heq; intro hc; exact hne () hc

example : 2 ^ 31 ≤ nbPixels [65536, 65536] ∧ nbPixels [65537, 65537] % 2 ^ 32 = 131073 ∧
    (initGlobal32 stableSort exColl [65537, 65537] [65536, 65536] [0, 0] [1, 65536]).1 = .ub := by
  decide +kernel

/-- **C86** Programs all of whose grids can be counted in 31 bits behave as with unbounded counts, so
that the theorems about collections hold of them.  What is missing: larger grids, of which
`C86_refused` and `C86_large_part` say what happens. -/
theorem C86_programs_partial {srt : SortFn} {c : Coll α U} {ops : List (Op α U)}
    (h : ∀ op ∈ ops, match op with
      | .initGlobal dom sub _ _ => Countable dom ∧ Countable (subdomainOr dom sub)
      | .initGlobalOrder dom sub _ _ => Countable dom ∧ Countable (subdomainOr dom sub)
      | _ => True) :
    run32 srt c ops = c.run srt ops := by
  induction ops generalizing c with
  | nil => rfl
  | cons op ops ih =>
    have hop := h op (by simp)
    have he : step32 srt c op = c.step srt op := by
      cases op with
      | initGlobal dom sub loc strides =>
        simp only [step32, step, initGlobal32_small hop.1 hop.2]
      | initGlobalOrder dom sub loc order =>
        simp only [step32, step, initGlobalOrder32_small hop.1 hop.2]
      | _ => rfl
    rw [run32, run, he]
    rcases c.step srt op with ⟨r, c'⟩
    cases r <;> first | rfl | exact ih (fun o ho => h o (by simp [ho]))

example : run32 stableSort exColl exProgram = some exAfter := by
  rw [C86_programs_partial, exAfter_run]
  intro op hop
  simp only [exProgram, List.mem_cons, List.mem_nil_iff, or_false] at hop
  rcases hop with rfl | rfl | rfl | rfl
  · trivial
  · trivial
  · exact ⟨⟨by decide, by decide, by decide⟩, ⟨by decide, by decide, by decide⟩⟩
  · trivial

/-- **C86** The same count makes wrapping refuse large arrays: an array with exactly one value per point
of a grid of `k` points is refused unless `k` is below 2^31. -/
theorem C86_numpy_refused {srt : SortFn} {domain nb loc : List Int} {a : NpArray}
    (h : ∀ n ∈ nb, 0 < n ∧ n < 2 ^ 32) (hk : 2 ^ 31 ≤ nbPixels nb) (ha : a.size = nbPixels nb) :
    proxyPixel32 srt domain nb loc 1 a = .throw .numpyError := by
  unfold proxyPixel32 sizeCheck32
  rw [nbFromShape_eq (fun n hn => ⟨by have := h n hn; omega, (h n hn).2⟩)]
  have hr := (toInt32_range (nbPixels nb)).2
  show Res.bind (if toInt32 (nbPixels nb) * 1 ≠ a.size then Res.throw Err.numpyError else Res.ok ()) _ = _
  rw [if_pos (by rw [ha]; omega)]
  rfl

example : nbPixels [65536, 32768] = 2 ^ 31 ∧ (⟨[65536, 32768], [32768, 1], 1⟩ : NpArray).size = 2 ^ 31 ∧
    proxyPixel stableSort [65536, 32768] [65536, 32768] [0, 0] 1 ⟨[65536, 32768], [32768, 1], 1⟩ ≠
      .throw .numpyError := by decide +kernel

/-- **C86** Wrapping arrays over grids that can be counted is as with unbounded counts. -/
theorem C86_numpy_partial {srt : SortFn} {domain nb loc : List Int} {nbDof : Int} {a : NpArray}
    (hd : Countable domain) (hn : Countable nb) :
    proxyPixel32 srt domain nb loc nbDof a = proxyPixel srt domain nb loc nbDof a := by
  have hh := hn.high
  rw [← getSize_eq_nbPixels] at hh
  unfold proxyPixel32 proxyPixel sizeCheck32
  rw [nbFromShape_of_countable hd, nbFromShape_of_countable hn]
  show Res.bind (if getSize nb * nbDof ≠ a.size then Res.throw Err.numpyError else Res.ok ()) _ = _
  by_cases h1 : getSize nb * nbDof ≠ a.size
  · rw [if_pos h1, if_pos h1]; rfl
  · rw [if_neg h1, if_neg h1]
    show (if _ then _ else _) = _
    congr 1
    congr 1
    dsimp only
    congr 1
    show Res.bind _ _ = Res.bind _ _
    congr 1
    funext det
    show (if getSize domain ≤ 0 then _ else if getSize nb < 0 then _ else if 2 ^ 31 ≤ getSize nb then _ else _) = _
    unfold makeProxy
    rw [if_neg (show ¬ 2 ^ 31 ≤ getSize nb by omega)]
    split
    · rfl
    · split <;> rfl

example : Countable [4, 3] ∧ ∃ w, proxyPixel32 stableSort [4, 3] [4, 3] [0, 0] 2 ⟨[2, 4, 3], [1, 2, 8], 1⟩ = .ok w :=
  ⟨⟨by decide, by decide, by decide⟩, _, by with_unfolding_all rfl⟩

/-! ### Contiguous buffers -/

theorem contiguousLoop32_small {nb strides : List Int} (hp : Pos nb) {as : List Nat} {st : Int} (h1 : 1 ≤ st)
    (h : st * (pick as nb).prod < 2 ^ 31) (hlt : ∀ a ∈ as, a < nb.length) (acc : Bool) :
    contiguousLoop32 nb strides as st acc = contiguousLoop nb strides as st acc := by
  induction as generalizing st acc with
  | nil => rfl
  | cons a as ih =>
    have ha := hlt a (by simp)
    have hn : 0 < nb[a] := hp _ (List.getElem_mem ha)
    have hpk : pick (a :: as) nb = nb[a] :: pick as nb := by
      simp [pick, List.getElem?_eq_getElem ha]
    rw [hpk, List.prod_cons, ← mul_assoc] at h
    have hq : 0 < (pick as nb).prod := by
      apply prod_pos_of_pos
      intro m hm
      simp only [pick, List.mem_map] at hm
      obtain ⟨b, hb, rfl⟩ := hm
      have := hlt b (by simp [hb])
      rw [List.getElem?_eq_getElem this]
      exact hp _ (List.getElem_mem this)
    have hsn : 1 ≤ st * nb[a] := by nlinarith
    have hlt2 : st * nb[a] < 2 ^ 31 := by
      have : st * nb[a] ≤ st * nb[a] * (pick as nb).prod := by nlinarith
      omega
    have ht : toInt32 (st * nb[a]) = st * nb[a] :=
      toInt32_of_range (by norm_num at hsn ⊢; omega) (by norm_num at hlt2 ⊢; omega)
    simp only [contiguousLoop32, contiguousLoop, at!_eq_ok ha, Res.ok_bind, ht]
    cases at! strides a with
    | ok s => exact ih hsn h (fun b hb => hlt b (by simp [hb])) _
    | throw e => rfl
    | ub => rfl

/-- **C86** On grids of fewer than 2^31 points the test for contiguous buffers is as with unbounded
strides. -/
theorem C86_contiguous_partial {srt : SortFn} (hs : SortSpec srt) {nb : List Int} (strides : List Int) (hp : Pos nb)
    (h : nbPixels nb < 2 ^ 31) :
    isBufferContiguous32 srt nb strides = isBufferContiguous srt nb strides := by
  unfold isBufferContiguous32 isBufferContiguous computeAxesOrder
  by_cases hl : strides.length = nb.length
  · have hperm : (srt (axesLt nb strides) (List.range nb.length)).Perm (List.range nb.length) :=
      (hs _ (List.range nb.length) (axesLt_strictWeak nb strides)).1
    rw [if_neg (show ¬ strides.length < nb.length by omega)]
    rw [Res.ok_bind, Res.ok_bind, contiguousLoop32_small hp (le_refl 1)
      (by rw [one_mul, pick_prod hperm, ← nbPixels_eq_prod]; exact h)
      (fun a ha => by simpa using hperm.mem_iff.1 ha)]
  · rw [if_pos hl, if_pos hl]

example : nbPixels [4, 5, 6] < 2 ^ 31 ∧ isBufferContiguous32 stableSort [4, 5, 6] [5, 1, 20] = .ok true ∧
    isBufferContiguous32 stableSort [4, 5, 6] [6, 1, 24] = .ok false := by decide +kernel

theorem contiguousLoop32_true {nb strides : List Int} (hp : Pos nb) {as : List Nat} {st : Int} (h1 : 0 ≤ st)
    {acc : Bool} (h : contiguousLoop nb strides as st acc = .ok true) (acc' : Bool) :
    contiguousLoop32 nb strides as (toInt32 st) acc' =
      .ok (acc' && as.all fun a => decide (strides[a]?.getD 0 < 2 ^ 31)) := by
  induction as generalizing st acc acc' with
  | nil => simp [contiguousLoop32]
  | cons a as ih =>
    simp only [contiguousLoop, Res.bind_eq_ok] at h
    obtain ⟨s, hs, n, hn, h⟩ := h
    have hn0 : 0 < n := by
      unfold at! at hn
      cases hg : nb[a]? with
      | none => rw [hg] at hn; cases hn
      | some m => rw [hg] at hn; cases hn; exact hp _ (List.mem_of_getElem? hg)
    have hacc : ∀ {as : List Nat} {x : Int} {b : Bool}, contiguousLoop nb strides as x b = .ok true → b = true := by
      intro as
      induction as with
      | nil => intro x b h; simpa [contiguousLoop] using h
      | cons a as ih2 =>
        intro x b h
        simp only [contiguousLoop, Res.bind_eq_ok] at h
        obtain ⟨_, _, _, _, h⟩ := h
        have := ih2 h
        simp only [Bool.and_eq_true] at this
        exact this.1
    have hst : s = st := by
      have := hacc h
      simp only [Bool.and_eq_true, beq_iff_eq] at this
      exact this.2
    have hsget : strides[a]?.getD 0 = st := by
      unfold at! at hs
      cases hg : strides[a]? with
      | none => rw [hg] at hs; cases hs
      | some m => rw [hg] at hs; cases hs; simpa using hst
    have he : toInt32 (toInt32 st * n) = toInt32 (st * n) := by
      simp only [toInt32, Int.bmod_mul_bmod]
    simp only [contiguousLoop32, hs, hn, Res.ok_bind, he]
    rw [ih (by positivity) h, List.all_cons, hsget, hst, Bool.and_assoc]
    congr 2
    congr 1
    have hr := toInt32_range st
    by_cases hlt : st < 2 ^ 31
    · have : toInt32 st = st := toInt32_of_range (by norm_num; omega) (by norm_num at hlt ⊢; omega)
      rw [this]
      simpa using hlt
    · have : st ≠ toInt32 st := by omega
      rw [beq_eq_false_iff_ne.2 this]
      simpa using hlt

/-- **C86** Contiguous buffers of large grids: a buffer that is contiguous is recognised exactly if all its
strides are below 2^31. -/
theorem C86_contiguous_exact {srt : SortFn} (hs : SortSpec srt) {nb strides : List Int} (hp : Pos nb)
    (h : isBufferContiguous srt nb strides = .ok true) :
    isBufferContiguous32 srt nb strides = .ok true ↔ nb = [] ∨ ∀ s ∈ strides, s < 2 ^ 31 := by
  unfold isBufferContiguous at h
  unfold isBufferContiguous32
  by_cases h0 : nb.length = 0
  · simp [h0, List.length_eq_zero_iff.1 h0]
  · have hsz : getSize nb ≠ 0 := by
      rw [getSize_eq_nbPixels, nbPixels_eq_prod]
      exact (prod_pos_of_pos hp).ne'
    rw [if_neg h0, if_neg hsz] at h ⊢
    by_cases hl : strides.length = nb.length
    · rw [if_neg (by simpa using hl)] at h ⊢
      unfold computeAxesOrder at h ⊢
      rw [if_neg (show ¬ strides.length < nb.length by omega)] at h ⊢
      rw [Res.ok_bind] at h ⊢
      have hperm : (srt (axesLt nb strides) (List.range nb.length)).Perm (List.range nb.length) :=
        (hs _ (List.range nb.length) (axesLt_strictWeak nb strides)).1
      have := contiguousLoop32_true hp (by norm_num) h true
      rw [toInt32_one] at this
      rw [this]
      have hnb : nb ≠ [] := by intro hc; simp [hc] at h0
      simp only [Bool.true_and, Res.ok.injEq, List.all_eq_true, decide_eq_true_eq, hnb, false_or]
      constructor
      · intro ha s hsm
        obtain ⟨i, hi, rfl⟩ := List.getElem_of_mem hsm
        have := ha i (hperm.mem_iff.2 (by simp; omega))
        rwa [List.getElem?_eq_getElem hi, Option.getD_some] at this
      · intro ha a ham
        have : a < nb.length := by simpa using hperm.mem_iff.1 ham
        rw [List.getElem?_eq_getElem (by omega), Option.getD_some]
        exact ha _ (List.getElem_mem _)
    · rw [if_pos (by simpa using hl)] at h
      cases h

example : isBufferContiguous stableSort [65536, 65536, 2] [1, 65536, 2 ^ 32] = .ok true ∧
    isBufferContiguous32 stableSort [65536, 65536, 2] [1, 65536, 2 ^ 32] = .ok false := by decide +kernel

/-- **C86** On larger grids the test may also pass for buffers in which two pixels share an address: here
the pixels (65536, 1, 0) and (0, 0, 1). -/
theorem C86_contiguous_overlap :
    isBufferContiguous32 stableSort [65537, 65537, 2] [1, 65537, 131073] = .ok true ∧
    InBox [65537, 65537, 2] [65536, 1, 0] ∧ InBox [65537, 65537, 2] [0, 0, 1] ∧
    dot [1, 65537, 131073] [65536, 1, 0] = dot [1, 65537, 131073] [0, 0, 1] := by decide +kernel

end Verif.Props
