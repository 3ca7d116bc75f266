import Mathlib.Algebra.Field.Defs
import Mathlib.Algebra.CharZero.Defs
import Mathlib.Algebra.BigOperators.Group.List.Basic
import Verif.Lemmas.FieldMap
import Verif.Props.FieldOps
/-
Properties C22, C23 and C54 of maps over fields.

`Built srt c`: the collection `c` results from the constructor (with sub-point numbers that are unknown
or positive) and calls with positive component numbers, appending only before initialisation.  By
`C11_sizes_partial` its fields are then allocated as they should be.
-/
set_option linter.unusedSectionVars false

namespace Verif.Props
open Verif Verif.Ccoord Verif.Layout Verif.Collection Verif.Collection.Coll

variable {α U : Type} [Inhabited α] [DecidableEq U]

/-- Collections that programs can build. -/
def Built (srt : SortFn) (c : Coll α U) : Prop :=
  ∃ global dim order, ∃ sub : SMap String Int, ∃ c0 : Coll α U, sub.Sorted ∧
    (∀ tag n, sub.find tag = some n → n = Unknown ∨ 1 ≤ n) ∧
    mk' global dim order sub = .ok c0 ∧ Reachable srt Adm c0 c

theorem Built.size {srt : SortFn} {c : Coll α U} (h : Built srt c) : SizeInv c := by
  obtain ⟨_, _, _, _, _, h1, h2, h3, h4⟩ := h
  exact reachable_size h1 h2 h3 h4

theorem Built.pix {srt : SortFn} {c : Coll α U} (h : Built srt c) : PixInv srt c := by
  obtain ⟨_, _, _, _, _, _, _, h3, h4⟩ := h
  exact reachable_pix h3 h4

/-- Scalars per iterate. -/
def perIter (f : Field α U) : IterUnit → Nat
  | .pixel => (f.nbComp * f.nbSub).toNat
  | .subPt => f.nbComp.toNat

/-- Number of iterates: pixels or sub-points. -/
def nbIter (c : Coll α U) (f : Field α U) : IterUnit → Nat
  | .pixel => c.nbPixels.toNat
  | .subPt => (f.nbSub * c.nbPixels).toNat

/-- `m` was made by one of the constructors with a positive number of rows. -/
def Made (c : Coll α U) (name : String) (it : IterUnit) (m : FieldMap) : Prop :=
  FieldMap.mkDefault c name it = .ok m ∨ (∃ r, 1 ≤ r ∧ FieldMap.mkRows c name r it = .ok m) ∨
    ∃ r k, 1 ≤ r ∧ FieldMap.mkStatic c name r k it = .ok m

theorem mkRows_on {c : Coll α U} (hinv : SizeInv c) (hi : c.initialised = true) {name : String}
    {f : Field α U} (hf : c.fields.find name = some f) {it : IterUnit} {m : FieldMap} {r : Int}
    (hr : 1 ≤ r) (hm : FieldMap.mkRows c name r it = .ok m) :
    FieldMap.On c m f (perIter f it) ∧ m.iter = it ∧ m.name = name := by
  obtain ⟨s1, s2, s3⟩ := hinv.size hi name f hf
  have hcomp := hinv.comp name f hf
  have hpos : 1 ≤ f.nbSub := (hinv.sub_pos hf).resolve_left s1
  unfold FieldMap.mkRows at hm
  rw [hf] at hm
  obtain ⟨st, hst, hm⟩ := Res.bind_eq_ok.1 hm
  have hst' : st = (perIter f it : Int) := by
    cases it with
    | pixel =>
      simp only [FieldMap.fieldStride] at hst
      split at hst
      · simp only [Res.ok.injEq] at hst
        have : 0 ≤ f.nbComp * f.nbSub := by positivity
        simp only [perIter]; omega
      · simp at hst
    | subPt =>
      simp only [FieldMap.fieldStride, Res.ok.injEq] at hst
      simp only [perIter]; omega
  have hst0 : 0 ≤ st := by omega
  rw [if_neg (by omega)] at hm
  simp only at hm
  split at hm
  · simp at hm
  · split at hm
    · simp at hm
    · rename_i hsh
      simp only [Res.pure_eq, Res.ok.injEq] at hm
      subst hm
      refine ⟨⟨hf, hi, s3, by simp only; omega, ?_, ?_, hst'⟩, rfl, rfl⟩
      · exact Int.tdiv_nonneg hst0 (by omega)
      · rw [← hst']; simpa using hsh

theorem made_on {c : Coll α U} (hinv : SizeInv c) (hi : c.initialised = true) {name : String}
    {f : Field α U} (hf : c.fields.find name = some f) {it : IterUnit} {m : FieldMap}
    (hm : Made c name it m) :
    FieldMap.On c m f (perIter f it) ∧ m.iter = it ∧ m.name = name := by
  rcases hm with hm | ⟨r, hr, hm⟩ | ⟨r, k, hr, hm⟩
  · obtain ⟨s1, s2, s3⟩ := hinv.size hi name f hf
    have hcomp := hinv.comp name f hf
    have hpos : 1 ≤ f.nbSub := (hinv.sub_pos hf).resolve_left s1
    have h0 : 0 ≤ f.nbComp * f.nbSub := by positivity
    unfold FieldMap.mkDefault at hm
    rw [hf] at hm
    obtain ⟨st, hst, hm⟩ := Res.bind_eq_ok.1 hm
    simp only at hm
    split at hm
    · simp at hm
    · simp only [Res.pure_eq, Res.ok.injEq] at hm
      subst hm
      cases it with
      | pixel =>
        simp only [FieldMap.fieldStride] at hst
        split at hst
        · simp only [Res.ok.injEq] at hst
          refine ⟨⟨hf, hi, s3, by simp only; omega, by simp only [if_true]; omega, ?_, ?_⟩, rfl, rfl⟩
          · simp only [perIter, if_true]; omega
          · simp only [perIter]; omega
        · simp at hst
      | subPt =>
        simp only [FieldMap.fieldStride, Res.ok.injEq] at hst
        refine ⟨⟨hf, hi, s3, by simp only; omega, by simp, ?_, ?_⟩, rfl, rfl⟩
        · simp only [perIter]; simp; omega
        · simp only [perIter]; omega
  · exact mkRows_on hinv hi hf hr hm
  · unfold FieldMap.mkStatic at hm
    obtain ⟨m', hm', hm⟩ := Res.bind_eq_ok.1 hm
    split at hm
    · simp at hm
    · simp only [Res.pure_eq, Res.ok.injEq] at hm
      subst hm
      exact mkRows_on hinv hi hf hr hm'

/-- Number of iterates and entries of a map on an allocated field: with `nbBuf = nbPixels` (no gaps
between pixels) the iterates are the pixels or sub-points, and fill the buffer up to the padding. -/
theorem size_of_map {c : Coll α U} (hinv : SizeInv c) (hi : c.initialised = true) {name : String}
    {f : Field α U} (hf : c.fields.find name = some f) (hd : c.nbBuf = c.nbPixels)
    (hcur : f.cur = f.nbSub * c.nbBuf) (hsz : f.vals.length < 18446744073709551616) {it : IterUnit}
    {m : FieldMap} (hname : m.name = name) (hit : m.iter = it) :
    FieldMap.size c m = .ok (nbIter c f it) ∧
    nbIter c f it * perIter f it + f.pad = f.vals.length := by
  obtain ⟨s1, s2, s3⟩ := hinv.size hi name f hf
  have hcomp := hinv.comp name f hf
  have hpos : 1 ≤ f.nbSub := (hinv.sub_pos hf).resolve_left s1
  have hbuf := hinv.buf hi
  rw [hd] at hbuf hcur s2
  have hp0 : 0 ≤ f.nbSub * c.nbPixels := by positivity
  have hle1 : c.nbPixels ≤ f.nbSub * c.nbPixels := by nlinarith
  have hle2 : f.nbSub * c.nbPixels ≤ f.nbComp * f.nbSub * c.nbPixels := by nlinarith
  constructor
  · unfold FieldMap.size
    rw [hname, hf]
    have hne : f.nbEntries c.nbPixels = f.nbSub * c.nbPixels := by
      simp [Field.nbEntries, Field.hasSub, s1]
    simp only [hne]
    by_cases h0 : f.nbSub * c.nbPixels = 0
    · rw [if_neg (not_not.2 h0)]
      have hz : c.nbPixels = 0 := by
        rcases mul_eq_zero.1 h0 with h | h
        · omega
        · exact h
      cases it <;> simp [nbIter, hz]
    · rw [if_pos h0, hit]
      cases it with
      | pixel =>
        simp only [nbIter]
        rw [if_neg (by simp), FieldMap.toSizeT_of_nonneg hbuf (by omega)]
      | subPt =>
        simp only [nbIter, if_true]
        rw [FieldMap.toSizeT_of_nonneg (by omega) (by omega), hcur]
  · have hz : ((nbIter c f it * perIter f it : Nat) : Int) = f.nbComp * f.nbSub * c.nbPixels := by
      cases it with
      | pixel =>
        have : 0 ≤ f.nbComp * f.nbSub := by positivity
        simp only [nbIter, perIter]
        push_cast
        rw [Int.toNat_of_nonneg hbuf, Int.toNat_of_nonneg this]; ring
      | subPt =>
        simp only [nbIter, perIter]
        push_cast
        rw [Int.toNat_of_nonneg hp0, Int.toNat_of_nonneg (by omega)]; ring
    omega

/-! ## C22 -/

/-- **C22** Iterating a map over a field whose pixels lie in the buffer without gaps yields as many
iterates as there are pixels (or sub-points), the `i`-th consisting of the entries `i*k, …, i*k+k-1`
of the buffer (`k` scalars per iterate); together they are the whole buffer up to the padding, each
entry once. -/
theorem C22_visits {srt : SortFn} {c : Coll α U} (hb : Built srt c) (hi : c.initialised = true)
    {name : String} {f : Field α U} (hf : c.fields.find name = some f) (hd : c.nbBuf = c.nbPixels)
    (hcur : f.cur = f.nbSub * c.nbBuf) (hsz : f.vals.length < 18446744073709551616) {it : IterUnit}
    {m : FieldMap} (hm : Made c name it m) :
    ∃ chunks, FieldMap.iterate c m = .ok chunks ∧ chunks.length = nbIter c f it ∧
      (∀ i j, i < nbIter c f it → j < perIter f it →
        (chunks[i]?.bind (·[j]?)) = f.vals[i * perIter f it + j]?) ∧
      (∀ ch ∈ chunks, ch.length = perIter f it) ∧
      chunks.flatten ++ f.vals.drop (f.vals.length - f.pad) = f.vals := by
  obtain ⟨hon, hit, hname⟩ := made_on hb.size hi hf hm
  obtain ⟨h1, h2⟩ := size_of_map hb.size hi hf hd hcur hsz hname hit
  refine ⟨_, FieldMap.iterate_ok hon h1 (by omega), by simp, ?_, ?_, ?_⟩
  · intro i j hi' hj
    rw [List.getElem?_map, List.getElem?_range hi']
    simp only [Option.map_some, Option.bind_some, chunk]
    rw [List.getElem?_take_of_lt hj, List.getElem?_drop]
  · intro ch hch
    obtain ⟨i, hi', rfl⟩ := List.mem_map.1 hch
    apply chunk_length
    have := Nat.mul_le_mul_right (perIter f it) (List.mem_range.1 hi')
    simp only [Nat.succ_eq_add_one] at this
    omega
  · rw [chunks_flatten, show f.vals.length - f.pad = nbIter c f it * perIter f it by omega]
    exact List.take_append_drop _ _

/-- In local collections the pixels lie without gaps. -/
theorem C22_local_dense {srt : SortFn} {c : Coll α U} (hb : Built srt c) (hi : c.initialised = true)
    (hg : c.global = false) : c.nbBuf = c.nbPixels := by
  obtain ⟨h1, h2⟩ := hb.pix.loc hg hi
  rw [h1, h2]

/-- The entries of a list overwritten block by block. -/
theorem getElem?_flatten_const {L : List (List α)} {k : Nat} (h : ∀ l ∈ L, l.length = k) {i j : Nat}
    (hj : j < k) : L.flatten[i * k + j]? = L[i]?.bind (·[j]?) := by
  induction L generalizing i with
  | nil => simp
  | cons l L ih =>
    have hl : l.length = k := h l (by simp)
    cases i with
    | zero =>
      simp only [List.flatten_cons, Nat.zero_mul, Nat.zero_add, List.getElem?_cons_zero, Option.bind_some]
      rw [List.getElem?_append_left (by omega)]
    | succ i =>
      simp only [List.flatten_cons, List.getElem?_cons_succ]
      have e : (i + 1) * k + j = l.length + (i * k + j) := by rw [hl]; ring
      rw [e, List.getElem?_append_right (by omega), Nat.add_sub_cancel_left]
      exact ih (fun l' hl' => h l' (by simp [hl']))

/-- **C22** Assigning a matrix of the iterate's shape through the map (`=`, `+=`, `-=`: `op old new`)
succeeds, replaces entry `j` of every iterate by `op old val_j`, and changes neither the padding nor
anything else in the collection. -/
theorem C22_assign {srt : SortFn} {c : Coll α U} (hb : Built srt c) (hi : c.initialised = true)
    {name : String} {f : Field α U} (hf : c.fields.find name = some f) (hd : c.nbBuf = c.nbPixels)
    (hcur : f.cur = f.nbSub * c.nbBuf) (hsz : f.vals.length < 18446744073709551616) {it : IterUnit}
    {m : FieldMap} (hm : Made c name it m) (op : α → α → α) {val : List α}
    (hval : val.length = perIter f it) :
    ∃ vals', FieldMap.assign c m op m.rows m.cols val = .ok (c.withField name (f.withVals vals')) ∧
      vals'.length = f.vals.length ∧
      (∀ i j, i < nbIter c f it → j < perIter f it →
        vals'[i * perIter f it + j]? =
          (f.vals[i * perIter f it + j]?).bind (fun a => (val[j]?).map (op a))) ∧
      (∀ p, f.vals.length - f.pad ≤ p → vals'[p]? = f.vals[p]?) := by
  obtain ⟨hon, hit, hname⟩ := made_on hb.size hi hf hm
  obtain ⟨h1, h2⟩ := size_of_map hb.size hi hf hd hcur hsz hname hit
  generalize hk : perIter f it = k at *
  generalize hn : nbIter c f it = n at *
  have hz : ∀ l : List α, l.length = k → (List.zipWith op l val).length = k := by
    intro l hl; simp [hl, hval]
  have hloop := FieldMap.modifyLoop_ok (m := m) (g := fun old => List.zipWith op old val) (f := f) hz
    (stop := n) (by omega) n 0 c [] (by omega) (by simp) (by simpa using hon)
    hb.size.wf.fields_sorted
  rw [← List.range_eq_range'] at hloop
  simp only [List.nil_append] at hloop
  generalize hL : ((List.range n).map (fun j => List.zipWith op (chunk f.vals k j) val)) = L at hloop
  have hLlen : ∀ l ∈ L, l.length = k := by
    intro l hl
    rw [← hL] at hl
    obtain ⟨i, hi', rfl⟩ := List.mem_map.1 hl
    apply hz
    apply chunk_length
    have := Nat.mul_le_mul_right k (List.mem_range.1 hi')
    simp only [Nat.succ_eq_add_one] at this
    omega
  have hLfl : L.flatten.length = n * k := by
    rw [List.length_flatten, List.map_congr_left (g := fun _ => k) hLlen, List.map_const', List.sum_replicate,
      ← hL]
    simp
  refine ⟨L.flatten ++ f.vals.drop (n * k), ?_, ?_, ?_, ?_⟩
  · unfold FieldMap.assign
    rw [if_neg (by simp), if_neg (by simp [hon.ready]), h1, Res.ok_bind, hloop, hname]
  · rw [List.length_append, hLfl, List.length_drop]; omega
  · intro i j hi' hj
    have hlt : i * k + j < n * k := by
      have := Nat.mul_le_mul_right k (show i + 1 ≤ n from hi')
      have e : (i + 1) * k = i * k + k := by ring
      omega
    rw [List.getElem?_append_left (by omega), getElem?_flatten_const hLlen hj, ← hL, List.getElem?_map,
      List.getElem?_range hi']
    simp only [Option.map_some, Option.bind_some, chunk]
    rw [List.getElem?_zipWith, List.getElem?_take_of_lt hj, List.getElem?_drop]
    cases f.vals[i * k + j]? <;> cases val[j]? <;> rfl
  · intro p hp
    rw [List.getElem?_append_right (by omega), List.getElem?_drop, hLfl]
    congr 1; omega

/-- **C22** A value of another shape is rejected. -/
theorem C22_assign_shape (c : Coll α U) (m : FieldMap) (op : α → α → α) {r k : Int} (val : List α)
    (h : ¬ (r = m.rows ∧ k = m.cols)) : FieldMap.assign c m op r k val = .throw .fieldMapError := by
  unfold FieldMap.assign; rw [if_pos h]

/-- **C22** Assigning a scalar through a map with one entry per iterate (`=`, `+=`, `-=`) replaces every entry of the field,
and changes nothing else. -/
theorem C22_assign_scalar {srt : SortFn} {c : Coll α U} (hb : Built srt c) (hi : c.initialised = true)
    {name : String} {f : Field α U} (hf : c.fields.find name = some f) (hd : c.nbBuf = c.nbPixels)
    (hcur : f.cur = f.nbSub * c.nbBuf) (hsz : f.vals.length < 18446744073709551616) {it : IterUnit}
    {m : FieldMap} (hm : Made c name it m) (op : α → α → α) (val : α) (hr : m.rows = 1) (hk : m.cols = 1)
    (h1 : perIter f it = 1) :
    ∃ vals', FieldMap.assignScalar c m op val = .ok (c.withField name (f.withVals vals')) ∧
      vals'.length = f.vals.length ∧ (∀ i < nbIter c f it, vals'[i]? = (f.vals[i]?).map fun a => op a val) ∧
      (∀ p, f.vals.length - f.pad ≤ p → vals'[p]? = f.vals[p]?) := by
  obtain ⟨vals, e1, e2, e3, e4⟩ := C22_assign hb hi hf hd hcur hsz hm op (val := [val]) (by simp [h1])
  refine ⟨vals, ?_, e2, ?_, e4⟩
  · rw [← e1, FieldMap.assignScalar, FieldMap.assign, if_neg (c := ¬ (m.rows = 1 ∧ m.cols = 1)) (by simp [hr, hk]),
      if_neg (c := ¬ (m.rows = m.rows ∧ m.cols = m.cols)) (by simp)]
  · intro i hi'
    have := e3 i 0 hi' (by omega)
    simp only [h1, Nat.mul_one, Nat.add_zero] at this
    rw [this]
    cases f.vals[i]? <;> rfl

/-- **C22** A scalar is rejected by maps with larger iterates. -/
theorem C22_assign_scalar_shape (c : Coll α U) (m : FieldMap) (op : α → α → α) (val : α)
    (h : ¬ (m.rows = 1 ∧ m.cols = 1)) : FieldMap.assignScalar c m op val = .throw .fieldMapError := by
  unfold FieldMap.assignScalar; rw [if_pos h]

/-- A map cannot be iterated before its collection is initialised. -/
theorem C22_uninitialised (c : Coll α U) (m : FieldMap) (h : m.ready = false) :
    FieldMap.iterate c m = .throw .fieldMapError := by
  unfold FieldMap.iterate; rw [if_pos (by simp [h])]

/-- The constructor with a number of rows accepts exactly the divisors of the number of scalars per
iterate (for allocated column-major fields). -/
theorem C22_rows {srt : SortFn} {c : Coll α U} (hb : Built srt c) (hi : c.initialised = true)
    {name : String} {f : Field α U} (hf : c.fields.find name = some f) (ho : c.order = .colMajor)
    (it : IterUnit) {r : Int} (hr : 1 ≤ r) :
    (∃ m, FieldMap.mkRows c name r it = .ok m) ↔ r ∣ (perIter f it : Int) := by
  have hinv := hb.size
  obtain ⟨s1, s2, s3⟩ := hinv.size hi name f hf
  have hcomp := hinv.comp name f hf
  have hpos : 1 ≤ f.nbSub := (hinv.sub_pos hf).resolve_left s1
  have hst : FieldMap.fieldStride c f it = .ok (perIter f it : Int) := by
    cases it with
    | pixel =>
      have : c.hasSub f.tag = true := by
        simp [Coll.hasSub, hinv.wf.tags name f hf, s1]
      have h0 : 0 ≤ f.nbComp * f.nbSub := by positivity
      simp only [FieldMap.fieldStride, this, if_true, perIter]
      rw [Int.toNat_of_nonneg h0]
    | subPt =>
      simp only [FieldMap.fieldStride, perIter]
      rw [Int.toNat_of_nonneg (by omega)]
  unfold FieldMap.mkRows
  simp only [hf, hst, Res.ok_bind]
  rw [if_neg (by omega), if_neg (by simp [ho])]
  constructor
  · rintro ⟨m, hm⟩
    split at hm
    · simp at hm
    · rename_i h
      exact ⟨_, (not_not.1 h).symm⟩
  · intro hdvd
    rw [if_neg (not_not.2 (Int.mul_tdiv_cancel' hdvd))]
    exact ⟨_, rfl⟩

/-- Example: the 24 sub-points of the field `strain` (2 × 2 components, 4 sub-points, 3 × 2 pixels) as
2 × 2 matrices. -/
def exMap : FieldMap := ⟨"strain", .subPt, 4, 2, 2, true⟩

theorem exSub_pos (tag : String) (n : Int) (h : SMap.find [("quad", (4 : Int))] tag = some n) :
    n = Unknown ∨ 1 ≤ n := by
  simp only [SMap.find] at h
  split at h
  · cases h; exact Or.inr (by decide)
  · cases h

theorem exAfter_built : Built stableSort exAfter :=
  ⟨true, 2, .colMajor, [("quad", 4)], exColl, by simp [SMap.Sorted], exSub_pos,
    exColl_made, exAfter_reachable⟩

example : Made exAfter "strain" .subPt exMap := Or.inr (Or.inl ⟨2, by decide, by decide +kernel⟩)
example : exAfter.initialised = true ∧ exAfter.nbBuf = exAfter.nbPixels ∧
    (exAfter.fields.find "strain").map (fun f => decide (f.cur = f.nbSub * exAfter.nbBuf ∧
      f.vals.length = 96)) = some true := by decide +kernel
example : (match FieldMap.iterate exAfter exMap with | .ok l => l.length | _ => 0) = 24 := by
  decide +kernel

/-- A 2 × 2 grid with a scalar field, to which 5 is added everywhere. -/
def exOneField : Coll Int String :=
  ((exColl.run stableSort [.register "a" .int (.num 1) "pixel" "" false,
    .initGlobal [2, 2] [2, 2] [0, 0] [1, 2], .write "a" 1 9]).getD exColl)

example : (match FieldMap.mkDefault exOneField "a" .pixel with
    | .ok m => (match FieldMap.assignScalar exOneField m (· + ·) 5 with
      | .ok c => (c.fields.find "a").map (fun f => f.vals)
      | _ => none)
    | _ => none) = some [5, 14, 5, 5] ∧
    (exOneField.fields.find "a").map (fun f => (perIter f .pixel, nbIter exOneField f .pixel)) = some (1, 4) ∧
    FieldMap.assignScalar exAfter exMap (· + ·) 5 = .throw .fieldMapError := by
  decide +kernel

/-- A 2 × 2 grid whose second row starts at address 3: two entries of the buffer belong to no pixel. -/
def exGap : Coll Int String :=
  ((exColl.run stableSort [.register "a" .int (.num 1) "pixel" "" false,
    .initGlobal [2, 2] [2, 2] [0, 0] [1, 3], .write "a" 4 9]).getD exColl)

/-- **Outside the hypothesis of C22** (gaps between the pixels): the pixel map of a column-major field
on strided pixels visits the first `nb_pixels` entries of the buffer instead of the pixels' entries.
Pixel (1, 1), stored at address `1*1 + 1*3 = 4`, is never visited. -/
theorem C22_gap :
    exGap.initialised = true ∧ exGap.nbPixels = 4 ∧
    (exGap.fields.find "a").map (·.vals) = some [0, 0, 0, 0, 9, 0] ∧
    getIndexFromStrides exGap.pixels.strides [0, 0] [1, 1] = .ok 4 ∧
    (match FieldMap.mkDefault exGap "a" .pixel with
      | .ok m => FieldMap.iterate exGap m
      | _ => .ub) = .ok [[0], [0], [0], [0]] := by
  decide +kernel

/-! ## C54 -/

/-- C54 as documented: an index that passes the assertions of `operator[]` refers to entries of the
buffer. -/
def C54_statement : Prop :=
  ∀ (srt : SortFn) (c : Coll Int String), Built srt c → c.initialised = true → c.nbBuf = c.nbPixels →
    ∀ name f, c.fields.find name = some f → f.cur = f.nbSub * c.nbBuf →
    ∀ it m, Made c name it m → ∀ i, FieldMap.asserts c m i = true → FieldMap.access c m i ≠ .ub

/-- **C54** During iteration, and for every index below the number of iterates, the access stays within
the buffer.  (Full claim: `C54_statement`; missing: indices from the number of iterates up to
`nb_entries`, which the assertions let pass.) -/
theorem C54_in_bounds_partial {srt : SortFn} {c : Coll α U} (hb : Built srt c) (hi : c.initialised = true)
    {name : String} {f : Field α U} (hf : c.fields.find name = some f) (hd : c.nbBuf = c.nbPixels)
    (hcur : f.cur = f.nbSub * c.nbBuf) (hsz : f.vals.length < 18446744073709551616) {it : IterUnit}
    {m : FieldMap} (hm : Made c name it m) :
    FieldMap.iterate c m ≠ .ub ∧ ∀ i, i < nbIter c f it → ∃ v, FieldMap.access c m i = .ok v := by
  obtain ⟨hon, hit, hname⟩ := made_on hb.size hi hf hm
  obtain ⟨h1, h2⟩ := size_of_map hb.size hi hf hd hcur hsz hname hit
  refine ⟨by rw [FieldMap.iterate_ok hon h1 (by omega)]; simp, ?_⟩
  intro i hi'
  refine ⟨_, FieldMap.access_ok hon ?_⟩
  have := Nat.mul_le_mul_right (perIter f it) (show i + 1 ≤ nbIter c f it from hi')
  omega

/-- **C54, exactly.**  Without padding, the access with index `i` is within the buffer exactly for
`i` below the number of iterates; the assertions allow all `i ≤ nb_entries`.  So at least the index
`nb_entries` passes the assertions and reads behind the buffer; for pixel maps with several
sub-points, many more. -/
theorem C54_exact {srt : SortFn} {c : Coll α U} (hb : Built srt c) (hi : c.initialised = true)
    {name : String} {f : Field α U} (hf : c.fields.find name = some f) (hd : c.nbBuf = c.nbPixels)
    (hcur : f.cur = f.nbSub * c.nbBuf) (hsz : f.vals.length < 18446744073709551616) {it : IterUnit}
    {m : FieldMap} (hm : Made c name it m) (hpad : f.pad = 0) (i : Nat) :
    (FieldMap.access c m i = .ub ↔ nbIter c f it ≤ i) ∧
    (FieldMap.asserts c m i = true ↔ i ≤ nbIter c f .subPt) := by
  obtain ⟨hon, hit, hname⟩ := made_on hb.size hi hf hm
  obtain ⟨h1, h2⟩ := size_of_map hb.size hi hf hd hcur hsz hname hit
  obtain ⟨s1, s2, s3⟩ := hb.size.size hi name f hf
  have hcomp := hb.size.comp name f hf
  have hpos : 1 ≤ f.nbSub := (hb.size.sub_pos hf).resolve_left s1
  have hbuf := hb.size.buf hi
  rw [hd] at s2 hbuf
  have hp0 : 0 ≤ f.nbSub * c.nbPixels := by positivity
  have hle2 : f.nbSub * c.nbPixels ≤ f.nbComp * f.nbSub * c.nbPixels := by nlinarith
  have hk : 1 ≤ perIter f it := by
    cases it with
    | pixel =>
      have : 0 < f.nbComp * f.nbSub := by positivity
      simp only [perIter]; omega
    | subPt => simp only [perIter]; omega
  constructor
  · constructor
    · intro hub
      by_contra hlt
      obtain ⟨v, hv⟩ := (C54_in_bounds_partial hb hi hf hd hcur hsz hm).2 i (by omega)
      rw [hv] at hub; simp at hub
    · intro hle
      apply FieldMap.access_ub hon
      have := Nat.mul_le_mul_right (perIter f it) (show nbIter c f it + 1 ≤ i + 1 by omega)
      have e : (nbIter c f it + 1) * perIter f it = nbIter c f it * perIter f it + perIter f it := by ring
      omega
  · unfold FieldMap.asserts
    rw [hname, hf]
    have hne : f.nbEntries c.nbPixels = f.nbSub * c.nbPixels := by
      simp [Field.nbEntries, Field.hasSub, s1]
    simp only [hon.ready, hne, Bool.true_and, decide_eq_true_eq]
    rw [FieldMap.toSizeT_of_nonneg hp0 (by omega)]
    rfl

theorem C54_false : ¬ C54_statement := by
  intro h
  have hm : Made exAfter "strain" .pixel ⟨"strain", .pixel, 16, 4, 4, true⟩ := by
    left; decide +kernel
  refine h stableSort exAfter exAfter_built (by decide +kernel) (by decide +kernel) "strain"
    ((exAfter.fields.find "strain").getD (Field.new .real (.num 1) 1 "" "")) (by decide +kernel)
    (by decide +kernel) .pixel _ hm 6 (by decide +kernel) (by decide +kernel)

/-! ## C23 -/

section sums

theorem foldl_zip_length {β : Type} (g : β → β → β) {k : Nat} : ∀ (L : List (List β)) (s : List β),
    s.length = k → (∀ l ∈ L, l.length = k) → (L.foldl (fun s v => List.zipWith g s v) s).length = k := by
  intro L
  induction L with
  | nil => intro s hs _; exact hs
  | cons l L ih =>
    intro s hs h
    simp only [List.foldl_cons]
    exact ih _ (by simp [hs, h l (by simp)]) (fun l' hl' => h l' (by simp [hl']))

theorem foldl_zip_get {β : Type} [AddCommMonoid β] {k : Nat} : ∀ (L : List (List β)) (s : List β),
    s.length = k → (∀ l ∈ L, l.length = k) → ∀ j, j < k →
    (L.foldl (fun s v => List.zipWith (· + ·) s v) s)[j]? =
      some (s.getD j 0 + (L.map (fun l => l.getD j 0)).sum) := by
  intro L
  induction L with
  | nil =>
    intro s hs _ j hj
    simp [List.getD_eq_getElem?_getD, List.getElem?_eq_getElem (by omega : j < s.length)]
  | cons l L ih =>
    intro s hs h j hj
    have hl : l.length = k := h l (by simp)
    simp only [List.foldl_cons]
    rw [ih _ (by simp [hs, hl]) (fun l' hl' => h l' (by simp [hl'])) j hj]
    simp only [List.map_cons, List.sum_cons, Option.some.injEq]
    rw [← add_assoc]
    congr 1
    rw [List.getD_eq_getElem?_getD, List.getD_eq_getElem?_getD, List.getD_eq_getElem?_getD,
      List.getElem?_zipWith, List.getElem?_eq_getElem (by omega : j < s.length),
      List.getElem?_eq_getElem (by omega : j < l.length)]
    rfl

theorem sum_zipWith_add {β : Type} [AddCommMonoid β] : ∀ (s l : List β), s.length = l.length →
    (List.zipWith (· + ·) s l).sum = s.sum + l.sum
  | [], [], _ => by simp
  | a :: s, b :: l, h => by
      simp only [List.zipWith_cons_cons, List.sum_cons]
      rw [sum_zipWith_add s l (by simpa using h)]
      exact add_add_add_comm a b s.sum l.sum

theorem foldl_zip_sum {β : Type} [AddCommMonoid β] {k : Nat} : ∀ (L : List (List β)) (s : List β),
    s.length = k → (∀ l ∈ L, l.length = k) →
    (L.foldl (fun s v => List.zipWith (· + ·) s v) s).sum = s.sum + L.flatten.sum := by
  intro L
  induction L with
  | nil => intro s _ _; simp
  | cons l L ih =>
    intro s hs h
    have hl : l.length = k := h l (by simp)
    simp only [List.foldl_cons]
    rw [ih _ (by simp [hs, hl]) (fun l' hl' => h l' (by simp [hl'])), sum_zipWith_add _ _ (by omega),
      List.flatten_cons, List.sum_append, add_assoc]

end sums

variable {K : Type} [Inhabited K]

/-- **C23** `sum()` has in entry `j` the sum over all iterates of their entry `j`, for every shape of
the iterate; the sum of all its entries is the sum of all entries of the field (without padding). -/
theorem C23_sum [AddCommMonoid K] {srt : SortFn} {c : Coll K U} (hb : Built srt c)
    (hi : c.initialised = true) {name : String} {f : Field K U} (hf : c.fields.find name = some f)
    (hd : c.nbBuf = c.nbPixels) (hcur : f.cur = f.nbSub * c.nbBuf)
    (hsz : f.vals.length < 18446744073709551616) {it : IterUnit} {m : FieldMap} (hm : Made c name it m) :
    ∃ s, FieldMap.sum c m = .ok s ∧ s.length = perIter f it ∧
      (∀ j, j < perIter f it → s[j]? =
        some ((List.range (nbIter c f it)).map (fun i => f.vals.getD (i * perIter f it + j) 0)).sum) ∧
      s.sum = (f.vals.take (f.vals.length - f.pad)).sum := by
  obtain ⟨hon, hit, hname⟩ := made_on hb.size hi hf hm
  obtain ⟨h1, h2⟩ := size_of_map hb.size hi hf hd hcur hsz hname hit
  have hiter := FieldMap.iterate_ok hon h1 (by omega)
  have hlen : ∀ l ∈ (List.range (nbIter c f it)).map (chunk f.vals (perIter f it)),
      l.length = perIter f it := by
    intro l hl
    obtain ⟨i, hi', rfl⟩ := List.mem_map.1 hl
    apply chunk_length
    have := Nat.mul_le_mul_right (perIter f it) (List.mem_range.1 hi')
    simp only [Nat.succ_eq_add_one] at this
    omega
  have hz : (List.replicate (perIter f it) (0 : K)).length = perIter f it := by simp
  refine ⟨((List.range (nbIter c f it)).map (chunk f.vals (perIter f it))).foldl
    (fun s v => List.zipWith (· + ·) s v) (List.replicate (perIter f it) 0), ?_,
    foldl_zip_length _ _ _ hz hlen, ?_, ?_⟩
  · unfold FieldMap.sum
    simp only [hname, hf]
    rw [if_neg (by have := hon.rows; have := hon.cols; omega), hon.shape, Int.toNat_natCast]
    by_cases h0 : f.nbEntries c.nbPixels = 0
    · rw [if_neg (not_not.2 h0)]
      have : nbIter c f it = 0 := by
        have hs := h1
        unfold FieldMap.size at hs
        rw [hname, hf] at hs
        simp only [h0, ne_eq, not_true_eq_false, if_false, Res.ok.injEq] at hs
        omega
      simp [this]
    · rw [if_pos h0, hiter]; rfl
  · intro j hj
    rw [foldl_zip_get _ _ hz hlen j hj]
    congr 1
    have e : (List.replicate (perIter f it) (0 : K)).getD j 0 = 0 := by
      simp [List.getD_eq_getElem?_getD, hj]
    rw [e, zero_add, List.map_map]
    congr 1
    apply List.map_congr_left
    intro i hi'
    simp only [Function.comp_apply, chunk, List.getD_eq_getElem?_getD]
    rw [List.getElem?_take_of_lt hj, List.getElem?_drop]
  · rw [foldl_zip_sum _ _ hz hlen, chunks_flatten]
    simp only [List.sum_replicate, smul_zero, zero_add]
    congr 2; omega

/-- **C23** The sum does not depend on how the entries are split into rows and columns. -/
theorem C23_split [AddCommMonoid K] {srt : SortFn} {c : Coll K U} (hb : Built srt c)
    (hi : c.initialised = true) {name : String} {f : Field K U} (hf : c.fields.find name = some f)
    (hd : c.nbBuf = c.nbPixels) (hcur : f.cur = f.nbSub * c.nbBuf)
    (hsz : f.vals.length < 18446744073709551616) {it : IterUnit} {m m' : FieldMap}
    (hm : Made c name it m) (hm' : Made c name it m') : FieldMap.sum c m = FieldMap.sum c m' := by
  obtain ⟨s, h1, h2, h3, _⟩ := C23_sum hb hi hf hd hcur hsz hm
  obtain ⟨s', h1', h2', h3', _⟩ := C23_sum hb hi hf hd hcur hsz hm'
  rw [h1, h1']
  congr 1
  apply List.ext_getElem?
  intro j
  by_cases hj : j < perIter f it
  · rw [h3 j hj, h3' j hj]
  · rw [List.getElem?_eq_none (by omega), List.getElem?_eq_none (by omega)]

/-- **C23** `mean()` times the number of iterates is `sum()` (in a field of characteristic zero;
rounding is not modelled); it is zero if there are no iterates. -/
theorem C23_mean [Field K] [CharZero K] {srt : SortFn} {c : Coll K U} (hb : Built srt c)
    (hi : c.initialised = true) {name : String} {f : Collection.Field K U}
    (hf : c.fields.find name = some f)
    (hd : c.nbBuf = c.nbPixels) (hcur : f.cur = f.nbSub * c.nbBuf)
    (hsz : f.vals.length < 18446744073709551616) {it : IterUnit} {m : FieldMap} (hm : Made c name it m) :
    ∃ s a, FieldMap.sum c m = .ok s ∧ FieldMap.mean c m = .ok a ∧ a.length = perIter f it ∧
      a.map (· * (nbIter c f it : K)) = s ∧
      (nbIter c f it = 0 → ∀ v ∈ a, v = 0) := by
  obtain ⟨hon, hit, hname⟩ := made_on hb.size hi hf hm
  obtain ⟨h1, h2⟩ := size_of_map hb.size hi hf hd hcur hsz hname hit
  obtain ⟨s, hs1, hs2, hs3, _⟩ := C23_sum hb hi hf hd hcur hsz hm
  have hrc : ¬ (m.rows < 0 ∨ m.cols < 0) := by have := hon.rows; have := hon.cols; omega
  by_cases h0 : f.nbEntries c.nbPixels = 0
  · have hn : nbIter c f it = 0 := by
      have hs := h1
      unfold FieldMap.size at hs
      rw [hname, hf] at hs
      simp only [h0, ne_eq, not_true_eq_false, if_false, Res.ok.injEq] at hs
      omega
    refine ⟨s, List.replicate (perIter f it) 0, hs1, ?_, by simp, ?_, ?_⟩
    · unfold FieldMap.mean
      simp only [hname, hf]
      rw [if_neg hrc, if_neg (not_not.2 h0), hon.shape, Int.toNat_natCast]
    · apply List.ext_getElem?
      intro j
      by_cases hj : j < perIter f it
      · rw [hs3 j hj, hn]
        simp [hj]
      · rw [List.getElem?_eq_none (by simp; omega), List.getElem?_eq_none (by omega)]
    · intro _ v hv
      exact (List.mem_replicate.1 hv).2
  · have hn : nbIter c f it ≠ 0 := by
      intro hn
      apply h0
      obtain ⟨t1, t2, t3⟩ := hb.size.size hi name f hf
      have hpos : 1 ≤ f.nbSub := (hb.size.sub_pos hf).resolve_left t1
      have hbuf := hb.size.buf hi
      have hp : c.nbPixels = 0 := by
        rw [hd] at hbuf
        cases it with
        | pixel => simp only [nbIter] at hn; omega
        | subPt =>
          simp only [nbIter] at hn
          have : f.nbSub * c.nbPixels ≤ 0 := by omega
          nlinarith
      simp [Collection.Field.nbEntries, Collection.Field.hasSub, t1, hp]
    have hnK : (nbIter c f it : K) ≠ 0 := Nat.cast_ne_zero.2 hn
    refine ⟨s, s.map (· / (nbIter c f it : K)), hs1, ?_, by simp [hs2], ?_, fun h => absurd h hn⟩
    · unfold FieldMap.mean
      simp only [hname, hf]
      rw [if_neg hrc, if_pos h0, hs1, Res.ok_bind, h1, Res.ok_bind]; rfl
    · rw [List.map_map]
      conv_rhs => rw [← List.map_id s]
      apply List.map_congr_left
      intro v _
      simp [hnK]

/-- Example: three pixels with two rational components. -/
def exRatStart : Coll Rat String := Coll.empty false 2 .colMajor [("pixel", 1)]

def exRatProgram : List (Op Rat String) :=
  [.addPixel 3, .addPixel 8, .addPixel 9, .register "a" .real (.num 2) "pixel" "" false, .initLocal,
   .write "a" 0 1, .write "a" 3 5, .write "a" 4 3, .write "a" 5 6]

def exRat : Coll Rat String := (exRatStart.run stableSort exRatProgram).getD exRatStart

theorem exRat_built : Built stableSort exRat := by
  refine ⟨false, 2, .colMajor, [], exRatStart, by simp [SMap.Sorted], fun t n h => (by cases h), by decide +kernel,
    reachable_of_run (ops := exRatProgram) ?_ Reachable.start ?_⟩
  · intro d op hop
    simp only [exRatProgram, List.mem_cons, List.mem_nil_iff, or_false] at hop
    rcases hop with rfl | rfl | rfl | rfl | rfl | rfl | rfl | rfl | rfl <;> simp [Adm, Comps.toNb]
  · have : (exRatStart.run stableSort exRatProgram).isSome = true := by decide +kernel
    unfold exRat
    rw [Option.isSome_iff_exists] at this
    obtain ⟨c, hc⟩ := this
    rw [hc]; rfl

example : Made exRat "a" .pixel ⟨"a", .pixel, 2, 2, 1, true⟩ := Or.inl (by decide +kernel)
example : exRat.initialised = true ∧ exRat.nbBuf = exRat.nbPixels ∧
    (exRat.fields.find "a").map (fun f => (f.vals, decide (f.cur = f.nbSub * exRat.nbBuf))) =
      some ([1, 0, 0, 5, 3, 6], true) := by decide +kernel
example : FieldMap.sum exRat ⟨"a", .pixel, 2, 2, 1, true⟩ = .ok [4, 11] ∧
    FieldMap.mean exRat ⟨"a", .pixel, 2, 2, 1, true⟩ = .ok [4 / 3, 11 / 3] := by decide +kernel

end Verif.Props
