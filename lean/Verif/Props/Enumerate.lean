import Verif.Model.Enumerate
import Verif.Props.FieldMap
import Verif.Props.FieldOps
/-
Property C77: iterating over indices and values at once.
-/
set_option linter.unusedSectionVars false

namespace Verif.Props
open Verif Verif.Ccoord Verif.Layout Verif.Collection Verif.Collection.Coll

variable {α U : Type} [Inhabited α] [DecidableEq U]

/-! ### The loop -/

theorem indexIter_next {n : Nat} (hn : 1 ≤ n) (i : Nat) :
    (⟨i / n, ((i % n : Nat) : Int)⟩ : IndexIter).next n = .ok ⟨(i + 1) / n, (((i + 1) % n : Nat) : Int)⟩ := by
  have h0 : ¬ (n : Int) = 0 := by omega
  unfold IndexIter.next
  rw [if_neg h0]
  have e : (((i % n : Nat) : Int) + 1).tmod n = (((i + 1) % n : Nat) : Int) := by
    rw [Int.tmod_eq_emod_of_nonneg (by omega)]
    norm_cast
    rw [Nat.mod_add_mod]
  simp only [e]
  congr 1
  have hlt := Nat.mod_lt i (show 0 < n by omega)
  have hd := Nat.div_add_mod i n
  by_cases hz : i % n + 1 = n
  · have e1 : i + 1 = n * (i / n + 1) := by rw [Nat.mul_add]; omega
    have h1 : (i + 1) % n = 0 := by rw [e1]; exact Nat.mul_mod_right _ _
    have h2 : (i + 1) / n = i / n + 1 := by rw [e1]; exact Nat.mul_div_cancel_left _ (by omega)
    rw [h1, h2]; simp
  · have e1 : i + 1 = n * (i / n) + (i % n + 1) := by omega
    have h1 : (i + 1) % n = i % n + 1 := by
      rw [e1, Nat.mul_add_mod, Nat.mod_eq_of_lt (by omega)]
    have h2 : (i + 1) / n = i / n := by
      rw [e1, Nat.mul_add_div (by omega), Nat.div_eq_of_lt (by omega : i % n + 1 < n)]; rfl
    rw [h1, h2]
    rw [if_neg (by omega)]

theorem indexIter_end {n : Nat} (hn : 1 ≤ n) (len i : Nat) :
    (⟨i / n, ((i % n : Nat) : Int)⟩ : IndexIter) = ⟨len, 0⟩ ↔ i = len * n := by
  have hd := Nat.div_add_mod i n
  simp only [IndexIter.mk.injEq]
  constructor
  · rintro ⟨h1, h2⟩
    have : i % n = 0 := by omega
    rw [this, h1] at hd
    rw [Nat.mul_comm]; omega
  · rintro rfl
    exact ⟨Nat.mul_div_cancel _ (by omega), by simp⟩

/-- The label of the `j`-th sub-point: `pixel*n + offset`. -/
def subLabel (pix : List Int) (n : Nat) (j : Nat) : Int := pix.getD (j / n) 0 * n + (j % n : Nat)

theorem enumLoop_ok {c : Coll α U} {m : FieldMap} {n : Nat} (hn : 1 ≤ n) {stop : Nat} {g : Nat → List α}
    (fuel : Nat) : ∀ i, i ≤ c.pixelIndices.length * n → i ≤ stop →
      min (c.pixelIndices.length * n) stop ≤ i + fuel →
      (∀ j, j < min (c.pixelIndices.length * n) stop → FieldMap.access c m j = .ok (g j)) →
      FieldMap.enumLoop c m n stop fuel ⟨i / n, ((i % n : Nat) : Int)⟩ i =
        .ok ((List.range' i (min (c.pixelIndices.length * n) stop - i)).map
          (fun j => (subLabel c.pixelIndices n j, g j))) := by
  induction fuel with
  | zero =>
    intro i h1 h2 h3 _
    unfold FieldMap.enumLoop
    rw [if_pos (by rw [indexIter_end hn]; omega), show min (c.pixelIndices.length * n) stop - i = 0 by omega]
    rfl
  | succ fuel ih =>
    intro i h1 h2 h3 h4
    unfold FieldMap.enumLoop
    by_cases he : i = c.pixelIndices.length * n ∨ i = stop
    · rw [if_pos (by rw [indexIter_end hn]; exact he),
        show min (c.pixelIndices.length * n) stop - i = 0 by omega]
      rfl
    · have hlt : i < min (c.pixelIndices.length * n) stop := by omega
      have hpos : i / n < c.pixelIndices.length := by
        rw [Nat.div_lt_iff_lt_mul (by omega)]; omega
      have hdr : (⟨i / n, ((i % n : Nat) : Int)⟩ : IndexIter).deref c.pixelIndices n =
          .ok (subLabel c.pixelIndices n i) := by
        unfold IndexIter.deref subLabel
        simp only [List.getElem?_eq_getElem hpos, List.getD_eq_getElem?_getD, Option.getD_some]
      rw [if_neg (by rw [indexIter_end hn]; exact he), hdr, h4 i hlt, indexIter_next hn]
      simp only [Res.ok_bind]
      rw [ih (i + 1) (by omega) (by omega) (by omega) h4]
      obtain ⟨k, hk⟩ : ∃ k, min (c.pixelIndices.length * n) stop - i = k + 1 :=
        ⟨min (c.pixelIndices.length * n) stop - i - 1, by omega⟩
      rw [hk, show min (c.pixelIndices.length * n) stop - (i + 1) = k by omega, List.range'_succ]
      rfl

theorem pixels_length {srt : SortFn} {c : Coll α U} (hb : Built srt c) (hi : c.initialised = true) :
    (c.pixelIndices.length : Int) = c.nbPixels := by
  cases hg : c.global with
  | true =>
    obtain ⟨_, h2, _, h4, _, h6⟩ := hb.pix.glob hg hi
    rw [h6, h4]; simp [h2]
  | false => exact ((hb.pix.loc hg hi).1).symm

/-- The stride of the indices of a stored field's sub-division is its number of sub-points. -/
theorem stride_of_field {c : Coll α U} (hinv : SizeInv c) (hi : c.initialised = true) {name : String}
    {f : Field α U} (hf : c.fields.find name = some f) :
    1 ≤ f.nbSub ∧ c.checkInitialisedSubPt Unknown f.tag = .ok f.nbSub := by
  obtain ⟨s1, _, _⟩ := hinv.size hi name f hf
  have ht := hinv.wf.tags name f hf
  refine ⟨(hinv.sub_pos hf).resolve_left s1, ?_⟩
  simp [checkInitialisedSubPt, Coll.hasSub, ht, getSubConst, s1]

/-- What the loop over a zip yields for a map on a stored field: the first entries of both. -/
theorem enumLoop_field {srt : SortFn} {c : Coll α U} (hb : Built srt c) (hi : c.initialised = true)
    {name : String} {f : Field α U} (hf : c.fields.find name = some f) (hd : c.nbBuf = c.nbPixels)
    (hcur : f.cur = f.nbSub * c.nbBuf) (hsz : f.vals.length < 18446744073709551616) {it : IterUnit}
    {m : FieldMap} (hm : Made c name it m) {n : Nat} (hn : 1 ≤ n) :
    m.ready = true ∧ m.iter = it ∧ m.name = name ∧ FieldMap.size c m = .ok (nbIter c f it) ∧
    FieldMap.enumLoop c m n (nbIter c f it) (nbIter c f it) ⟨0, 0⟩ 0 =
      .ok ((List.range (min (c.nbPixels.toNat * n) (nbIter c f it))).map
        (fun j => (subLabel c.pixelIndices n j, chunk f.vals (perIter f it) j))) := by
  obtain ⟨hon, hit, hname⟩ := made_on hb.size hi hf hm
  obtain ⟨h1, h2⟩ := size_of_map hb.size hi hf hd hcur hsz hname hit
  have hlen : c.pixelIndices.length = c.nbPixels.toNat := by have := pixels_length hb hi; omega
  refine ⟨hon.ready, hit, hname, h1, ?_⟩
  have := enumLoop_ok (c := c) (m := m) hn (stop := nbIter c f it) (g := chunk f.vals (perIter f it))
    (nbIter c f it) 0 (by omega) (by omega) (by omega) (fun j hj => by
      refine FieldMap.access_ok hon (le_trans (Nat.mul_le_mul_right _ (?_ : j + 1 ≤ nbIter c f it)) (by omega))
      omega)
  rw [hlen] at this
  simpa [List.range_eq_range'] using this

/-! ## C77 -/

/-- What iterating over indices and values must yield for a map over pixels or over sub-points: one pair per
pixel `k` (sub-point `q` of pixel `k`), in order; its index is that of the pixel, `pixel_id` (of the sub-point,
`pixel_id*nb_sub_pts + q`), its values are the entries of that pixel (sub-point) in the field's buffer. -/
def Labelled (c : Coll α U) (f : Field α U) : IterUnit → List (Int × List α) → Prop
  | .pixel, L => L.length = c.pixelIndices.length ∧
      ∀ (k : Nat) (id : Int), c.pixelIndices[k]? = some id →
        ∃ v, L[k]? = some (id, v) ∧ v.length = (f.nbComp * f.nbSub).toNat ∧
          ∀ j, j < v.length → v[j]? = f.vals[k * (f.nbComp * f.nbSub).toNat + j]?
  | .subPt, L => L.length = c.pixelIndices.length * f.nbSub.toNat ∧
      ∀ (k : Nat) (id : Int) (q : Nat), c.pixelIndices[k]? = some id → q < f.nbSub.toNat →
        ∃ v, L[k * f.nbSub.toNat + q]? = some (id * f.nbSub + q, v) ∧ v.length = f.nbComp.toNat ∧
          ∀ j, j < v.length → v[j]? = f.vals[(k * f.nbSub.toNat + q) * f.nbComp.toNat + j]?

theorem chunk_get {l : List α} {k i j : Nat} (h : j < (chunk l k i).length) :
    (chunk l k i)[j]? = l[i * k + j]? := by
  have hj : j < k := by
    have : (chunk l k i).length ≤ k := by simp [chunk]
    omega
  unfold chunk
  rw [List.getElem?_take_of_lt hj, List.getElem?_drop]

/-- The loop with the right stride yields the labelled values. -/
theorem labelled_of_loop {srt : SortFn} {c : Coll α U} (hb : Built srt c) (hi : c.initialised = true)
    {name : String} {f : Field α U} (hf : c.fields.find name = some f) (hd : c.nbBuf = c.nbPixels)
    (hcur : f.cur = f.nbSub * c.nbBuf) (hsz : f.vals.length < 18446744073709551616) {it : IterUnit}
    {m : FieldMap} (hm : Made c name it m) :
    ∃ L, FieldMap.enumLoop c m (match it with | .pixel => 1 | .subPt => f.nbSub) (nbIter c f it)
      (nbIter c f it) ⟨0, 0⟩ 0 = .ok L ∧ Labelled c f it L := by
  obtain ⟨hs1, _⟩ := stride_of_field hb.size hi hf
  have hlen : c.pixelIndices.length = c.nbPixels.toNat := by have := pixels_length hb hi; omega
  have hp0 : 0 ≤ c.nbPixels := by have := pixels_length hb hi; omega
  obtain ⟨_, h2⟩ := size_of_map hb.size hi hf hd hcur hsz (m := m) (it := it)
    (made_on hb.size hi hf hm).2.2 (made_on hb.size hi hf hm).2.1
  have hcl : ∀ j, j < nbIter c f it → (chunk f.vals (perIter f it) j).length = perIter f it := by
    intro j hj
    apply chunk_length
    have := Nat.mul_le_mul_right (perIter f it) (show j + 1 ≤ nbIter c f it by omega)
    omega
  cases it with
  | pixel =>
    obtain ⟨_, _, _, _, h⟩ := enumLoop_field hb hi hf hd hcur hsz hm (n := 1) (le_refl 1)
    refine ⟨_, h, ?_, ?_⟩
    · simp [nbIter, hlen]
    · intro k id hk
      have hk' : k < c.nbPixels.toNat := by
        have := (List.getElem?_eq_some_iff.1 hk).1; omega
      refine ⟨chunk f.vals (perIter f .pixel) k, ?_, hcl k (by simpa [nbIter] using hk'),
        fun j hj => chunk_get hj⟩
      rw [List.getElem?_map, List.getElem?_range (by simp [nbIter]; omega)]
      simp [subLabel, List.getD_eq_getElem?_getD, hk]
  | subPt =>
    obtain ⟨n, hn⟩ : ∃ n : Nat, f.nbSub = n := ⟨f.nbSub.toNat, by omega⟩
    obtain ⟨_, _, _, _, h⟩ := enumLoop_field hb hi hf hd hcur hsz hm (n := n) (by omega)
    have hni : nbIter c f .subPt = c.nbPixels.toNat * n := by
      simp only [nbIter, hn]
      obtain ⟨p, hp⟩ : ∃ p : Nat, c.nbPixels = p := ⟨c.nbPixels.toNat, by omega⟩
      rw [hp]
      rw [show (n : Int) * (p : Int) = ((p * n : Nat) : Int) by push_cast; ring, Int.toNat_natCast,
        Int.toNat_natCast]
    refine ⟨_, by simp only [hn]; exact h, ?_, ?_⟩
    · simp [hni, hlen, hn]
    · intro k id q hk hq
      have hk' : k < c.nbPixels.toNat := by
        have := (List.getElem?_eq_some_iff.1 hk).1; omega
      rw [hn] at hq ⊢
      simp only [Int.toNat_natCast] at hq ⊢
      have hlt : k * n + q < c.nbPixels.toNat * n := by
        have := Nat.mul_le_mul_right n (show k + 1 ≤ c.nbPixels.toNat by omega)
        have e : (k + 1) * n = k * n + n := by ring
        omega
      refine ⟨chunk f.vals (perIter f .subPt) (k * n + q), ?_, hcl _ (by rw [hni]; exact hlt),
        fun j hj => chunk_get hj⟩
      rw [List.getElem?_map, List.getElem?_range (by rw [hni]; omega)]
      have e1 : (k * n + q) / n = k := by
        rw [Nat.mul_comm, Nat.mul_add_div (by omega), Nat.div_eq_of_lt hq]; rfl
      have e2 : (k * n + q) % n = q := by
        rw [Nat.mul_comm, Nat.mul_add_mod, Nat.mod_eq_of_lt hq]
      simp only [Option.map_some, subLabel, e1, e2, List.getD_eq_getElem?_getD, hk, Option.getD_some]

/-- **C77** Enumerating a statically sized map over pixels or sub-points of a stored field yields every value
with its index. -/
theorem C77_static {srt : SortFn} {c : Coll α U} (hb : Built srt c) (hi : c.initialised = true)
    {name : String} {f : Field α U} (hf : c.fields.find name = some f) (hd : c.nbBuf = c.nbPixels)
    (hcur : f.cur = f.nbSub * c.nbBuf) (hsz : f.vals.length < 18446744073709551616) {it : IterUnit}
    {m : FieldMap} (hm : Made c name it m) :
    ∃ L, FieldMap.enumerateStatic c m = .ok L ∧ Labelled c f it L := by
  obtain ⟨L, h, hL⟩ := labelled_of_loop hb hi hf hd hcur hsz hm
  obtain ⟨h1, h2, h3, h4, _⟩ := enumLoop_field hb hi hf hd hcur hsz hm (n := 1) (le_refl 1)
  refine ⟨L, ?_, hL⟩
  unfold FieldMap.enumerateStatic
  cases it with
  | pixel => rw [h2]; simp only [h4, Res.ok_bind]; exact h
  | subPt =>
    rw [h2, h3, hf]
    simp only [h4, Res.ok_bind, (stride_of_field hb.size hi hf).2]
    exact h

/-- **C77** `enumerate_pixel_indices_fast` of a map over pixels yields the pixels' values with their indices;
of a map over sub-points it throws. -/
theorem C77_pixels {srt : SortFn} {c : Coll α U} (hb : Built srt c) (hi : c.initialised = true)
    {name : String} {f : Field α U} (hf : c.fields.find name = some f) (hd : c.nbBuf = c.nbPixels)
    (hcur : f.cur = f.nbSub * c.nbBuf) (hsz : f.vals.length < 18446744073709551616) {it : IterUnit}
    {m : FieldMap} (hm : Made c name it m) :
    (it = .pixel → ∃ L, FieldMap.enumeratePixels c m = .ok L ∧ Labelled c f .pixel L) ∧
    (it = .subPt → FieldMap.enumeratePixels c m = .throw .fieldMapError) := by
  obtain ⟨L, h, hL⟩ := labelled_of_loop hb hi hf hd hcur hsz hm
  obtain ⟨h1, h2, h3, h4, _⟩ := enumLoop_field hb hi hf hd hcur hsz hm (n := 1) (le_refl 1)
  constructor
  · rintro rfl
    refine ⟨L, ?_, hL⟩
    simp only [FieldMap.enumeratePixels, FieldMap.enumZip, h2, h1, h4, ne_eq, not_true_eq_false, if_false,
      Res.ok_bind]
    exact h
  · rintro rfl
    simp [FieldMap.enumeratePixels, h2]

/-- The full claim for maps sized at run time: `enumerate_indices` labels what the map iterates over. -/
def C77_statement : Prop :=
  ∀ (srt : SortFn), SortSpec srt → ∀ (c : Coll Int String), Built srt c → c.initialised = true →
    ∀ (name : String) (f : Field Int String), c.fields.find name = some f → c.nbBuf = c.nbPixels →
    f.cur = f.nbSub * c.nbBuf → f.vals.length < 18446744073709551616 → ∀ (it : IterUnit) (m : FieldMap),
    Made c name it m → ∃ L, FieldMap.enumerateIndices c m = .ok L ∧ Labelled c f it L

/-- **C77** For maps sized at run time over sub-points, or of fields with one sub-point per pixel,
`enumerate_indices` yields every value with its index.  (Full claim: `C77_statement`; missing: maps over pixels
with several sub-points, see `C77_pixel_map`.) -/
theorem C77_indices_partial {srt : SortFn} {c : Coll α U} (hb : Built srt c) (hi : c.initialised = true)
    {name : String} {f : Field α U} (hf : c.fields.find name = some f) (hd : c.nbBuf = c.nbPixels)
    (hcur : f.cur = f.nbSub * c.nbBuf) (hsz : f.vals.length < 18446744073709551616) {it : IterUnit}
    {m : FieldMap} (hm : Made c name it m) (hit : it = .subPt ∨ f.nbSub = 1) :
    ∃ L, FieldMap.enumerateIndices c m = .ok L ∧ Labelled c f it L := by
  obtain ⟨L, h, hL⟩ := labelled_of_loop hb hi hf hd hcur hsz hm
  obtain ⟨h1, h2, h3, h4, _⟩ := enumLoop_field hb hi hf hd hcur hsz hm (n := 1) (le_refl 1)
  refine ⟨L, ?_, hL⟩
  have hst := (stride_of_field hb.size hi hf).2
  simp only [FieldMap.enumerateIndices, FieldMap.enumZip, h3, hf, hst, h1, h4, Res.ok_bind, not_true_eq_false,
    if_false]
  rw [← h]
  rcases hit with rfl | hone
  · rfl
  · cases it
    · rw [hone]
    · rfl

/-- **C77** What `enumerate_indices` does for a map over pixels: the `k`-th pixel is paired with the index of the
`k`-th sub-point, i.e. of a sub-point of the pixel `k / nb_sub_pts`. -/
theorem C77_pixel_map {srt : SortFn} {c : Coll α U} (hb : Built srt c) (hi : c.initialised = true)
    {name : String} {f : Field α U} (hf : c.fields.find name = some f) (hd : c.nbBuf = c.nbPixels)
    (hcur : f.cur = f.nbSub * c.nbBuf) (hsz : f.vals.length < 18446744073709551616)
    {m : FieldMap} (hm : Made c name .pixel m) :
    ∃ L, FieldMap.enumerateIndices c m = .ok L ∧ L.length = c.pixelIndices.length ∧
      ∀ (k q : Nat) (id : Int), q < f.nbSub.toNat → k * f.nbSub.toNat + q < c.pixelIndices.length →
        c.pixelIndices[k]? = some id → ∃ v, L[k * f.nbSub.toNat + q]? = some (id * f.nbSub + q, v) ∧
          ∀ j, j < v.length → v[j]? =
            f.vals[(k * f.nbSub.toNat + q) * (f.nbComp * f.nbSub).toNat + j]? := by
  obtain ⟨hs1, hst⟩ := stride_of_field hb.size hi hf
  obtain ⟨n, hn⟩ : ∃ n : Nat, f.nbSub = n := ⟨f.nbSub.toNat, by omega⟩
  have hn1 : 1 ≤ n := by omega
  obtain ⟨h1, h2, h3, h4, h5⟩ := enumLoop_field hb hi hf hd hcur hsz hm (n := n) hn1
  have hlen : c.pixelIndices.length = c.nbPixels.toNat := by have := pixels_length hb hi; omega
  have hmin : min (c.nbPixels.toNat * n) (nbIter c f .pixel) = c.pixelIndices.length := by
    have : c.nbPixels.toNat * 1 ≤ c.nbPixels.toNat * n := Nat.mul_le_mul_left _ hn1
    simp only [nbIter, hlen]; omega
  refine ⟨(List.range (min (c.nbPixels.toNat * n) (nbIter c f .pixel))).map
    (fun j => (subLabel c.pixelIndices n j, chunk f.vals (perIter f .pixel) j)), ?_, ?_, ?_⟩
  · simp only [FieldMap.enumerateIndices, FieldMap.enumZip, h3, hf, hst, h1, h4, Res.ok_bind,
      not_true_eq_false, if_false]
    rw [hn]
    exact h5
  · simp [hmin]
  · intro k q id hq hlt hk
    rw [hn] at hq hlt ⊢
    simp only [Int.toNat_natCast] at hq hlt ⊢
    refine ⟨chunk f.vals (perIter f .pixel) (k * n + q), ?_, fun j hj => by
      have := chunk_get hj
      simp only [perIter, hn] at this ⊢
      exact this⟩
    rw [List.getElem?_map, List.getElem?_range (by rw [hmin]; exact hlt)]
    have e1 : (k * n + q) / n = k := by
      rw [Nat.mul_comm, Nat.mul_add_div (by omega), Nat.div_eq_of_lt hq]; rfl
    have e2 : (k * n + q) % n = q := by
      rw [Nat.mul_comm, Nat.mul_add_mod, Nat.mod_eq_of_lt hq]
    simp only [Option.map_some, subLabel, e1, e2, List.getD_eq_getElem?_getD, hk, Option.getD_some]

/-- **C77** A map that is not initialised is refused. -/
theorem C77_uninitialised (c : Coll α U) (m : FieldMap) (h : m.ready = false) :
    FieldMap.enumeratePixels c m = .throw .fieldMapError ∧
    ∀ L, FieldMap.enumerateIndices c m ≠ .ok L := by
  constructor
  · unfold FieldMap.enumeratePixels FieldMap.enumZip
    split
    · rfl
    · simp [h]
  · intro L hL
    unfold FieldMap.enumerateIndices FieldMap.enumZip at hL
    split at hL
    · cases hL
    · obtain ⟨_, _, h2⟩ := Res.bind_eq_ok.1 hL
      simp [h] at h2

/-- A local collection of the pixels 7 and 3 with a field `a` of four sub-points. -/
def exEnumOps : List (Op Int String) :=
  [.addPixel 7, .addPixel 3, .register "a" .int (.num 1) "quad" "" false, .initLocal, .write "a" 2 5,
   .write "a" 4 6, .write "a" 7 8]

def exEnum : Coll Int String := (exLocal.run stableSort exEnumOps).getD exLocal

theorem exEnum_built : Built stableSort exEnum := by
  refine ⟨false, 2, .colMajor, [("quad", 4)], exLocal, by simp [SMap.Sorted], exSub_pos, exLocal_made,
    reachable_of_run (ops := exEnumOps) ?_ Reachable.start ?_⟩
  · intro d op hop
    simp only [exEnumOps, List.mem_cons, List.mem_nil_iff, or_false] at hop
    rcases hop with rfl | rfl | rfl | rfl | rfl | rfl | rfl <;> simp [Adm, Comps.toNb]
  · have : (exLocal.run stableSort exEnumOps).isSome = true := by decide +kernel
    obtain ⟨c, hc⟩ := Option.isSome_iff_exists.1 this
    rw [exEnum, hc]; rfl

/-- The hypotheses hold for maps over its pixels and over its sub-points; the pairs, with the indices 7 and 3 of
the pixels and 28..31, 12..15 of the sub-points. -/
example : exEnum.initialised = true ∧ exEnum.nbBuf = exEnum.nbPixels ∧ (exEnum.fields.find "a").map
      (fun f => decide (f.cur = f.nbSub * exEnum.nbBuf ∧ f.vals = [0, 0, 5, 0, 6, 0, 0, 8])) = some true ∧
    FieldMap.enumerateStatic exEnum ⟨"a", .pixel, 4, 1, 4, true⟩ = .ok [(7, [0, 0, 5, 0]), (3, [6, 0, 0, 8])] ∧
    FieldMap.enumerateIndices exEnum ⟨"a", .subPt, 1, 1, 1, true⟩ =
      .ok [(28, [0]), (29, [0]), (30, [5]), (31, [0]), (12, [6]), (13, [0]), (14, [0]), (15, [8])] := by
  decide +kernel
example : Made exEnum "a" .pixel ⟨"a", .pixel, 4, 1, 4, true⟩ := Or.inl (by decide +kernel)
example : Made exEnum "a" .subPt ⟨"a", .subPt, 1, 1, 1, true⟩ := Or.inl (by decide +kernel)

/-- **C77** is false: over the pixels of that field, the second pixel comes with the index of a sub-point of the
first. -/
theorem C77_false : ¬ C77_statement := by
  intro h
  obtain ⟨f, hf⟩ : ∃ f, exEnum.fields.find "a" = some f := Option.isSome_iff_exists.1 (by decide +kernel)
  have hv : (exEnum.fields.find "a").map (fun f => decide (f.cur = f.nbSub * exEnum.nbBuf ∧
      f.vals.length < 18446744073709551616)) = some true := by decide +kernel
  rw [hf] at hv
  simp only [Option.map_some, Option.some.injEq, decide_eq_true_eq] at hv
  obtain ⟨L, h1, _, h3⟩ := h stableSort stableSort_spec exEnum exEnum_built (by decide +kernel) "a" f hf
    (by decide +kernel) hv.1 hv.2 .pixel ⟨"a", .pixel, 4, 1, 4, true⟩ (Or.inl (by decide +kernel))
  have hL : FieldMap.enumerateIndices exEnum ⟨"a", .pixel, 4, 1, 4, true⟩ =
      .ok [(28, [0, 0, 5, 0]), (29, [6, 0, 0, 8])] := by decide +kernel
  rw [hL] at h1
  cases h1
  obtain ⟨v, hv, _⟩ := h3 1 3 (by decide +kernel)
  simp at hv

end Verif.Props
