import Verif.Model.EigenView
import Verif.Props.FieldArith
import Verif.Props.FieldMap
/-
Property C74: the matrices `eigen_sub_pt()` and `eigen_pixel()` show the field.
-/
set_option linter.unusedSectionVars false

namespace Verif.Props
open Verif Verif.Ccoord Verif.Layout Verif.Layout.FieldLayout Verif.Collection Verif.Collection.Coll Verif.FieldArith

variable {α U : Type} [Inhabited α] [DecidableEq U]

/-! ### Specification -/

/-- The number of a component, the first index running fastest: the order in which Eigen stores matrices. -/
def compNumber : List Int → List Int → Int
  | n :: shape, i :: is => i + n * compNumber shape is
  | _, _ => 0

/-- The element of a field with components `cs` at sub-point `s` of the pixel `p` (coordinates relative to the
first pixel), found with the strides the field reports. -/
def elementAt (c : Coll α U) (f : Field α U) (cs : List Int) (s : Int) (p : List Int) : Option α :=
  match (c.layout f).strides .subPt 1 with
  | .ok ms => f.vals[(dot ms (cs ++ s :: p)).toNat]?
  | _ => none

/-- The number of a pixel in its collection: `get_index` of global pixels, the order of `add_pixel` of local
ones. -/
def pixelNumber (c : Coll α U) (f : Field α U) (p : List Int) : Int := dot (c.layout f).pixStrides p

/-! ### Helper lemmas -/

theorem dot_acc {shape cs : List Int} (h : InBox shape cs) (acc : Int) :
    dot (FieldLayout.accStrides acc shape) cs = acc * compNumber shape cs := by
  induction shape generalizing cs acc with
  | nil =>
    cases cs with
    | nil => simp [FieldLayout.accStrides, dot, compNumber]
    | cons => exact absurd h id
  | cons n shape ih =>
    cases cs with
    | nil => exact absurd h id
    | cons i is =>
      simp only [FieldLayout.accStrides, dot, compNumber]
      rw [ih h.2.2]
      ring

theorem compNumber_bounds {shape cs : List Int} (h : InBox shape cs) :
    0 ≤ compNumber shape cs ∧ compNumber shape cs < shape.prod := by
  have := (addressing_acc shape).bounds cs h
  rwa [dot_acc h, one_mul] at this

/-- Offsets in a column-major field. -/
theorem dot_col {c : Coll α U} {f : Field α U} (ho : c.order = .colMajor) (hc : f.nbComp = f.shape.prod)
    {cs p ms : List Int} {s : Int} (hcs : InBox f.shape cs) (hms : (c.layout f).strides .subPt 1 = .ok ms) :
    dot ms (cs ++ s :: p) = compNumber f.shape cs + f.nbComp * s + f.nbComp * f.nbSub * pixelNumber c f p := by
  rw [(c.layout f).strides_col ho] at hms
  have := Res.ok.inj hms
  subst this
  rw [show cs ++ s :: p = (cs ++ [s]) ++ p by simp, dot_append (by simp [accStrides_length, hcs.length_eq, layout]),
    dot_append (by simp [accStrides_length, hcs.length_eq, layout])]
  have e1 : dot (FieldLayout.accStrides 1 (c.layout f).comps) cs = compNumber f.shape cs := by
    have := dot_acc hcs 1
    rw [one_mul] at this; exact this
  have e2 : ∀ (l q : List Int) (k : Int), dot (l.map (· * k)) q = k * dot l q := by
    intro l
    induction l with
    | nil => intro q k; simp [dot]
    | cons a l ih =>
      intro q k
      cases q with
      | nil => simp [dot]
      | cons b q => simp only [List.map_cons, dot, ih]; ring
  rw [e1, e2, e2, pixelNumber, hc]
  simp [dot, layout]

/-- What the theorems ask of a field: its collection can be built by a program and is initialised; it has at least
one dimension, one pixel and one sub-point; and its pixels pass the check of `is_buffer_contiguous`. -/
structure Shown (srt : SortFn) (c : Coll α U) (name : String) (f : Field α U) : Prop where
  built : Built srt c
  init : c.initialised = true
  field : c.fields.find name = some f
  dim : (c.layout f).pixShape ≠ []
  pos : Pos ((c.layout f).shape .subPt)
  contiguous : isBufferContiguous srt (c.layout f).pixShape (c.layout f).pixStrides = .ok true

/-- Pixels of an initialised collection with contiguous storage are numbered from 0 without gaps, and the buffer
has the size of the field. -/
theorem Shown.pixels {srt : SortFn} (hsrt : SortSpec srt) {c : Coll α U} {name : String} {f : Field α U}
    (h : Shown srt c name f) :
    Addressing (c.layout f).pixShape (c.layout f).pixStrides c.nbBuf ∧ c.nbPixels ≤ c.nbBuf ∧ 0 < c.nbPixels ∧
      ∀ i, (0 ≤ i ∧ i < c.nbPixels) ↔ ∃ p, InBox (c.layout f).pixShape p ∧ pixelNumber c f p = i := by
  have hn := arith_nbPixels h.built.pix h.init f
  have hp : Pos (c.layout f).pixShape := by
    intro n hn
    exact h.pos n (by rw [shape_subPt]; simp [hn])
  have hpos : 0 < c.nbPixels := by rw [← hn]; exact prod_pos_of_pos hp
  have hl : (c.layout f).pixStrides.length = (c.layout f).pixShape.length := by
    by_contra hne
    have := h.contiguous
    rw [C04_dimension srt hp (by simpa using h.dim) hne] at this
    cases this
  obtain ⟨⟨-, order, hperm, hd⟩, -, hall⟩ := C04_sound hsrt hp hl h.contiguous
  obtain ⟨m, hm, hA⟩ := C18_global_pixels ⟨hl, order, hperm, hd.sd⟩ h.dim
  have hall' : ∀ i, (0 ≤ i ∧ i < c.nbPixels) ↔ ∃ p, InBox (c.layout f).pixShape p ∧ pixelNumber c f p = i := by
    intro i
    rw [← hn, ← nbPixels_eq_prod]
    exact hall i
  have hbuf : Addressing (c.layout f).pixShape (c.layout f).pixStrides c.nbBuf := by
    cases hg : c.global with
    | true =>
      obtain ⟨-, -, -, -, h5, -⟩ := h.built.pix.glob hg h.init
      simp only [layout, hg, if_true] at hm hA ⊢
      rw [hm] at h5; cases h5
      exact hA
    | false =>
      obtain ⟨h5, h6⟩ := h.built.pix.loc hg h.init
      simp only [layout, hg]
      rw [h6, ← h5]
      exact addressing_single _
  refine ⟨hbuf, ?_, hpos, hall'⟩
  obtain ⟨p, hp1, hp2⟩ := (hall' (c.nbPixels - 1)).1 ⟨by omega, by omega⟩
  have := (hbuf.bounds p hp1).2
  rw [pixelNumber] at hp2
  omega

theorem Shown.facts {srt : SortFn} (hsrt : SortSpec srt) {c : Coll α U} {name : String} {f : Field α U}
    (h : Shown srt c name f) :
    f.nbComp = f.shape.prod ∧ 0 < f.nbComp ∧ 0 < f.nbSub ∧ f.fresh = true ∧
      f.nbEntries c.nbPixels = f.nbSub * c.nbPixels ∧ f.nbEntries c.nbPixels ≠ Unknown ∧
      f.nbComp * f.nbSub * c.nbPixels ≤ f.vals.length := by
  have hs := h.built.size
  obtain ⟨z0, z1, z2⟩ := hs.size h.init name f h.field
  have hc : f.nbComp = f.shape.prod := by rw [hs.wf.comps name f h.field, getSize_eq_prod]
  have hsh : (c.layout f).shape .subPt = f.shape ++ [f.nbSub] ++ (c.layout f).pixShape := rfl
  have hcp : 0 < f.nbComp := by
    rw [hc]; exact prod_pos_of_pos fun n hn => h.pos n (by rw [hsh]; simp [hn])
  have hsp : 0 < f.nbSub := h.pos _ (by rw [hsh]; simp)
  obtain ⟨-, hle, hpos, -⟩ := h.pixels hsrt
  have he : f.nbEntries c.nbPixels = f.nbSub * c.nbPixels := if_pos (by simpa [Field.hasSub] using z0)
  refine ⟨hc, hcp, hsp, z2, he, ?_, ?_⟩
  · rw [he]
    have : 0 < f.nbSub * c.nbPixels := by positivity
    simp only [Unknown]; omega
  · have : f.nbComp * f.nbSub * c.nbPixels ≤ f.nbComp * f.nbSub * c.nbBuf :=
      Int.mul_le_mul_of_nonneg_left hle (by positivity)
    omega

theorem Shown.eigenMap {srt : SortFn} {c : Coll α U} {name : String} {f : Field α U}
    (h : Shown srt c name f) (rows cols : Int) : FieldArith.eigenMap srt c f rows cols = .ok ⟨rows, cols⟩ := by
  have e : (c.layout f).pixelsStrides 1 = (c.layout f).pixStrides := by simp [FieldLayout.pixelsStrides]
  rw [FieldArith.eigenMap, if_neg (by simp [h.init]), e, h.contiguous, Res.ok_bind, if_pos rfl, Res.pure_eq]

/-- Arithmetic of places. -/
theorem place_bounds {a b n m : Int} (ha : 0 ≤ a ∧ a < n) (hb : 0 ≤ b ∧ b < m) :
    0 ≤ a + n * b ∧ a + n * b < n * m := by
  have h1 : n * b ≤ n * (m - 1) := Int.mul_le_mul_of_nonneg_left (by omega) (by omega)
  have h2 : 0 ≤ n * b := Int.mul_nonneg (by omega) hb.1
  have h3 : n * (m - 1) = n * m - n := by ring
  omega

/-! ### The property -/

/-- **C74** Column-major collections: the matrix `eigen_sub_pt()` has one column per sub-point, sub-point `s` of the
pixel with number `k` in column `s + nb_sub_pts * k`, and the components in the rows. -/
theorem C74_sub_pt_partial {srt : SortFn} (hsrt : SortSpec srt) {c : Coll α U} {name : String} {f : Field α U}
    (h : Shown srt c name f) (ho : c.order = .colMajor) :
    ∃ m, eigenSubPt srt c f = .ok m ∧ m.rows = f.nbComp ∧ m.cols = f.nbSub * c.nbPixels ∧
      ∀ cs s p, InBox f.shape cs → 0 ≤ s → s < f.nbSub → InBox (c.layout f).pixShape p →
        ∃ v, elementAt c f cs s p = some v ∧
          m.coeff f (compNumber f.shape cs) (s + f.nbSub * pixelNumber c f p) = .ok v := by
  obtain ⟨hc, hcp, hsp, hfr, he, hu, hlen⟩ := h.facts hsrt
  obtain ⟨hA, -, -, hall⟩ := h.pixels hsrt
  refine ⟨⟨f.nbComp, f.nbSub * c.nbPixels⟩, by rw [eigenSubPt, if_neg hu, h.eigenMap, he], rfl, rfl, ?_⟩
  intro cs s p hcs h0 h1 hp
  obtain ⟨ms, hms, -, -, -⟩ := C18_sub_pt_strides (c.layout f) (Or.inl ho) hA
  have hk := (hall _).2 ⟨p, hp, rfl⟩
  have hi := compNumber_bounds hcs
  rw [← hc] at hi
  have hj := place_bounds ⟨h0, h1⟩ hk
  have ht := place_bounds hi hj
  have hd := dot_col (s := s) (p := p) ho hc hcs hms
  have hpl : (⟨f.nbComp, f.nbSub * c.nbPixels⟩ : EigenMat).place (compNumber f.shape cs)
      (s + f.nbSub * pixelNumber c f p) = dot ms (cs ++ s :: p) := by
    rw [hd, EigenMat.place]; ring
  have hlt : (dot ms (cs ++ s :: p)).toNat < f.vals.length := by
    have e1 : compNumber f.shape cs + f.nbComp * (s + f.nbSub * pixelNumber c f p) = dot ms (cs ++ s :: p) := by
      rw [hd]; ring
    rw [e1] at ht
    have e2 : f.nbComp * (f.nbSub * c.nbPixels) = f.nbComp * f.nbSub * c.nbPixels := by ring
    omega
  refine ⟨f.vals[(dot ms (cs ++ s :: p)).toNat], ?_, ?_⟩
  · rw [elementAt, hms]; exact List.getElem?_eq_getElem hlt
  · rw [EigenMat.coeff, hpl, List.getElem?_eq_getElem hlt]
    exact if_pos ⟨hi.1, hi.2, hj.1, hj.2, hfr⟩

/-- **C74** Column-major collections: the matrix `eigen_pixel()` has one column per pixel, the column of the pixel with
number `k` is column `k`, and the components of sub-point `s` are in the rows from `nb_components * s`. -/
theorem C74_pixel_partial {srt : SortFn} (hsrt : SortSpec srt) {c : Coll α U} {name : String} {f : Field α U}
    (h : Shown srt c name f) (ho : c.order = .colMajor) :
    ∃ m, eigenPixel srt c f = .ok m ∧ m.rows = f.nbComp * f.nbSub ∧ m.cols = c.nbPixels ∧
      ∀ cs s p, InBox f.shape cs → 0 ≤ s → s < f.nbSub → InBox (c.layout f).pixShape p →
        ∃ v, elementAt c f cs s p = some v ∧
          m.coeff f (compNumber f.shape cs + f.nbComp * s) (pixelNumber c f p) = .ok v := by
  obtain ⟨hc, hcp, hsp, hfr, he, hu, hlen⟩ := h.facts hsrt
  obtain ⟨hA, -, -, hall⟩ := h.pixels hsrt
  refine ⟨⟨f.nbComp * f.nbSub, c.nbPixels⟩, ?_, rfl, rfl, ?_⟩
  · rw [eigenPixel, if_neg hu, if_neg (by omega), h.eigenMap, he, Int.mul_tdiv_cancel_left _ (by omega)]
  intro cs s p hcs h0 h1 hp
  obtain ⟨ms, hms, -, -, -⟩ := C18_sub_pt_strides (c.layout f) (Or.inl ho) hA
  have hk := (hall _).2 ⟨p, hp, rfl⟩
  have hi := compNumber_bounds hcs
  rw [← hc] at hi
  have hj := place_bounds hi ⟨h0, h1⟩
  have ht := place_bounds hj hk
  have hd := dot_col (s := s) (p := p) ho hc hcs hms
  have hpl : (⟨f.nbComp * f.nbSub, c.nbPixels⟩ : EigenMat).place (compNumber f.shape cs + f.nbComp * s)
      (pixelNumber c f p) = dot ms (cs ++ s :: p) := by
    rw [hd, EigenMat.place]; ring
  have hlt : (dot ms (cs ++ s :: p)).toNat < f.vals.length := by
    have e1 : compNumber f.shape cs + f.nbComp * s + f.nbComp * f.nbSub * pixelNumber c f p =
        dot ms (cs ++ s :: p) := by rw [hd]
    rw [e1] at ht
    omega
  refine ⟨f.vals[(dot ms (cs ++ s :: p)).toNat], ?_, ?_⟩
  · rw [elementAt, hms]; exact List.getElem?_eq_getElem hlt
  · rw [EigenMat.coeff, hpl, List.getElem?_eq_getElem hlt]
    exact if_pos ⟨hj.1, hj.2, hk.1, hk.2, hfr⟩

/-- **C74** All columns are of this kind: every column of `eigen_sub_pt()` belongs to one sub-point of one pixel, and
every column of `eigen_pixel()` to one pixel. -/
theorem C74_every_column {srt : SortFn} (hsrt : SortSpec srt) {c : Coll α U} {name : String} {f : Field α U}
    (h : Shown srt c name f) :
    (∀ k, 0 ≤ k → k < c.nbPixels → ∃ p, InBox (c.layout f).pixShape p ∧ pixelNumber c f p = k) ∧
    (∀ j, 0 ≤ j → j < f.nbSub * c.nbPixels → ∃ s p, 0 ≤ s ∧ s < f.nbSub ∧ InBox (c.layout f).pixShape p ∧
      j = s + f.nbSub * pixelNumber c f p) ∧
    (∀ p q, InBox (c.layout f).pixShape p → InBox (c.layout f).pixShape q →
      pixelNumber c f p = pixelNumber c f q → p = q) := by
  obtain ⟨-, -, hsp, -⟩ := h.facts hsrt
  obtain ⟨hA, -, -, hall⟩ := h.pixels hsrt
  refine ⟨fun k h0 h1 => (hall k).1 ⟨h0, h1⟩, fun j h0 h1 => ?_, fun p q hp hq he => hA.inj p q hp hq he⟩
  have h2 : j / f.nbSub < c.nbPixels := Int.ediv_lt_of_lt_mul hsp (by rwa [Int.mul_comm] at h1)
  obtain ⟨p, hp, hk⟩ := (hall (j / f.nbSub)).1 ⟨Int.ediv_nonneg h0 hsp.le, h2⟩
  refine ⟨j % f.nbSub, p, Int.emod_nonneg _ (by omega), Int.emod_lt_of_pos _ hsp, hp, ?_⟩
  rw [hk]; exact (Int.emod_add_mul_ediv j f.nbSub).symm

/-- **C74** Before the initialisation, without known sub-points, and for pixels that are not contiguous, the
matrices are refused. -/
theorem C74_refused (srt : SortFn) (c : Coll α U) (f : Field α U) :
    (c.initialised = false → eigenSubPt srt c f = .throw .fieldError) ∧
    (f.nbSub = Unknown → eigenSubPt srt c f = .throw .fieldError ∧ eigenPixel srt c f = .throw .fieldError) ∧
    (isBufferContiguous srt (c.layout f).pixShape (c.layout f).pixStrides = .ok false →
      eigenSubPt srt c f = .throw .fieldError) := by
  have e : (c.layout f).pixelsStrides 1 = (c.layout f).pixStrides := by simp [FieldLayout.pixelsStrides]
  refine ⟨fun h => ?_, fun h => ?_, fun h => ?_⟩
  · unfold eigenSubPt FieldArith.eigenMap
    split
    · rfl
    · rw [if_pos (by simp [h])]
  · have : f.nbEntries c.nbPixels = Unknown := if_neg (by simp [Field.hasSub, h])
    exact ⟨if_pos this, if_pos this⟩
  · unfold eigenSubPt FieldArith.eigenMap
    split
    · rfl
    · split
      · rfl
      · rw [e, h, Res.ok_bind]; rfl

/-- **C74** Assignment to a coefficient changes exactly the element that it shows. -/
theorem C74_write (m : EigenMat) (f : Field α U) (i j : Int) (v : α) (hr : m.rows * m.cols ≤ f.vals.length)
    (hf : f.fresh = true) (hi : 0 ≤ i ∧ i < m.rows) (hj : 0 ≤ j ∧ j < m.cols) :
    ∃ g, m.setCoeff f i j v = .ok g ∧ g = { f with vals := g.vals } ∧ g.vals.length = f.vals.length ∧
      m.coeff g i j = .ok v ∧
      ∀ i' j', 0 ≤ i' ∧ i' < m.rows → 0 ≤ j' ∧ j' < m.cols → (i', j') ≠ (i, j) →
        m.coeff g i' j' = m.coeff f i' j' := by
  have hpl : ∀ a b, m.place a b = a + m.rows * b := fun a b => by rw [EigenMat.place]; ring
  have hb := place_bounds hi hj
  rw [← hpl] at hb
  refine ⟨{ f with vals := f.vals.set (m.place i j).toNat v }, ?_, rfl, by simp, ?_, ?_⟩
  · exact if_pos ⟨hi.1, hi.2, hj.1, hj.2, hf, by omega⟩
  · rw [EigenMat.coeff, if_pos ⟨hi.1, hi.2, hj.1, hj.2, hf⟩]
    dsimp only
    rw [List.getElem?_set_self (by omega)]
  · intro i' j' hi' hj' hne
    rw [EigenMat.coeff, if_pos ⟨hi'.1, hi'.2, hj'.1, hj'.2, hf⟩, EigenMat.coeff,
      if_pos ⟨hi'.1, hi'.2, hj'.1, hj'.2, hf⟩]
    dsimp only
    rw [List.getElem?_set_ne]
    intro heq
    apply hne
    have hb' := place_bounds hi' hj'
    rw [← hpl] at hb'
    have heq' : i + m.rows * j = i' + m.rows * j' := by rw [← hpl, ← hpl]; omega
    have e1 : i = i' := by
      have := congrArg (· % m.rows) heq'
      simp only [Int.add_mul_emod_self_left] at this
      rwa [Int.emod_eq_of_lt hi.1 hi.2, Int.emod_eq_of_lt hi'.1 hi'.2] at this
    subst e1
    have e2 : m.rows * j = m.rows * j' := by omega
    rw [Int.eq_of_mul_eq_mul_left (by omega) e2]

/-- **C74** The columns are what maps on the field give: column `j` of `eigen_sub_pt()` is the iterate `j` of every map
on sub-points, column `j` of `eigen_pixel()` the iterate `j` of every map on pixels, entry by entry. -/
theorem C74_maps {srt : SortFn} (hsrt : SortSpec srt) {c : Coll α U} {name : String} {f : Field α U}
    (h : Shown srt c name f) {it : IterUnit} {mm : FieldMap} (hm : Made c name it mm) :
    ∃ m : EigenMat, (match it with | .subPt => eigenSubPt srt c f | .pixel => eigenPixel srt c f) = .ok m ∧
      m.cols = (nbIter c f it : Int) ∧ ∀ j : Nat, (j : Int) < m.cols → ∃ l : List α, (l.length : Int) = m.rows ∧
        m.col f j = .ok l ∧ FieldMap.access c mm j = .ok l ∧
        ∀ i : Nat, (i : Int) < m.rows → ∃ v, l[i]? = some v ∧ m.coeff f i j = .ok v := by
  obtain ⟨hc, hcp, hsp, hfr, he, hu, hlen⟩ := h.facts hsrt
  obtain ⟨-, -, hpos, -⟩ := h.pixels hsrt
  obtain ⟨hon, -, -⟩ := made_on h.built.size h.init h.field hm
  have key : ∀ (R : Nat) (C : Int), 0 < R → (R : Int) * C ≤ f.vals.length → perIter f it = R →
      ∀ j : Nat, (j : Int) < C → ∃ l : List α, (l.length : Int) = R ∧
        (⟨R, C⟩ : EigenMat).col f j = .ok l ∧ FieldMap.access c mm j = .ok l ∧
        ∀ i : Nat, (i : Int) < R → ∃ v, l[i]? = some v ∧ (⟨R, C⟩ : EigenMat).coeff f i j = .ok v := by
    intro R C hR hRC hper j hj
    have hb : (R : Int) * ((j : Int) + 1) ≤ R * C := Int.mul_le_mul_of_nonneg_left (by omega) (by omega)
    have hb1 : ((j : Int) + 1) * R ≤ f.vals.length := by rw [Int.mul_comm]; omega
    have hb2 : (j + 1) * R ≤ f.vals.length := by exact_mod_cast hb1
    refine ⟨chunk f.vals R j, by rw [chunk_length hb2], ?_, ?_, ?_⟩
    · rw [EigenMat.col]
      dsimp only
      rw [if_pos ⟨by omega, by omega, hj, hfr, hb1⟩]
      have e : ((j : Int) * R).toNat = j * R := by
        rw [show (j : Int) * R = ((j * R : Nat) : Int) by push_cast; rfl]; exact Int.toNat_natCast _
      rw [e, Int.toNat_natCast]; rfl
    · rw [← hper] at hb2 ⊢
      exact FieldMap.access_ok hon hb2
    · intro i hi
      have e : ((i : Int) + j * R).toNat = j * R + i := by
        rw [show (i : Int) + j * R = ((j * R + i : Nat) : Int) by push_cast; ring]; exact Int.toNat_natCast _
      have hlt : j * R + i < f.vals.length := by
        have : (j + 1) * R = j * R + R := by ring
        omega
      refine ⟨f.vals[j * R + i], ?_, ?_⟩
      · rw [chunk, List.getElem?_take_of_lt (by omega), List.getElem?_drop]
        exact List.getElem?_eq_getElem hlt
      · rw [EigenMat.coeff, EigenMat.place, if_pos ⟨by omega, hi, by omega, hj, hfr⟩]
        dsimp only
        rw [e, List.getElem?_eq_getElem hlt]
  cases it with
  | subPt =>
    refine ⟨⟨f.nbComp, f.nbSub * c.nbPixels⟩, ?_, ?_, ?_⟩
    · show eigenSubPt srt c f = _
      rw [eigenSubPt, if_neg hu, h.eigenMap, he]
    · simp only [nbIter]
      rw [Int.toNat_of_nonneg (by positivity)]
    · have := key f.nbComp.toNat (f.nbSub * c.nbPixels) (by omega)
        (by rw [Int.toNat_of_nonneg hcp.le, ← Int.mul_assoc]; exact hlen) rfl
      rw [Int.toNat_of_nonneg hcp.le] at this
      exact this
  | pixel =>
    have hdp : 0 < f.nbComp * f.nbSub := by positivity
    refine ⟨⟨f.nbComp * f.nbSub, c.nbPixels⟩, ?_, ?_, ?_⟩
    · show eigenPixel srt c f = _
      rw [eigenPixel, if_neg hu, if_neg (by omega), h.eigenMap, he, Int.mul_tdiv_cancel_left _ (by omega)]
    · simp only [nbIter]
      rw [Int.toNat_of_nonneg hpos.le]
    · have := key (f.nbComp * f.nbSub).toNat c.nbPixels (by omega)
        (by rw [Int.toNat_of_nonneg hdp.le]; exact hlen) rfl
      rw [Int.toNat_of_nonneg hdp.le] at this
      exact this

/-! ### An example and what fails -/

/-- The field `strain` (2 × 2 components, 4 quadrature points, 3 × 2 pixels) of the example of C10. -/
def eigStrain : Field Int String := ⟨.real, [2, 2], 4, 4, "quad", "", 0, 24, List.replicate 96 0, true⟩

theorem eigStrain_find : exAfter.fields.find "strain" = some eigStrain := by decide +kernel

theorem eigStrain_shown : Shown stableSort exAfter "strain" eigStrain :=
  ⟨exAfter_built, by decide +kernel, eigStrain_find, by decide +kernel, by decide +kernel, by decide +kernel⟩

-- Component (1, 0) of quadrature point 2 of the pixel (2, 1) is in row 1 and column 2 + 4 * 5.
example : Shown stableSort exAfter "strain" eigStrain ∧ exAfter.order = .colMajor ∧
    eigenSubPt stableSort exAfter eigStrain = .ok ⟨4, 24⟩ ∧ eigenPixel stableSort exAfter eigStrain = .ok ⟨16, 6⟩ ∧
    compNumber [2, 2] [1, 0] = 1 ∧ pixelNumber exAfter eigStrain [2, 1] = 5 ∧
    Made exAfter "strain" .subPt ⟨"strain", .subPt, 4, 2, 2, true⟩ :=
  ⟨eigStrain_shown, by decide +kernel, by decide +kernel, by decide +kernel, by decide +kernel, by decide +kernel,
    Or.inr (Or.inl ⟨2, by decide, by decide +kernel⟩)⟩

/-- The full claim: whatever the storage order, the rows of a column of `eigen_sub_pt()` are the components of one
sub-point. -/
def C74_statement : Prop :=
  ∀ (c : Coll Int String) (name : String) (f : Field Int String), Shown stableSort c name f →
    (c.order = .colMajor ∨ c.order = .rowMajor) → ∀ m, eigenSubPt stableSort c f = .ok m →
    ∀ cs s p, InBox f.shape cs → 0 ≤ s → s < f.nbSub → InBox (c.layout f).pixShape p → ∀ v,
      elementAt c f cs s p = some v → m.coeff f (compNumber f.shape cs) (s + f.nbSub * pixelNumber c f p) = .ok v

/-- Two pixels with two components each, row-major; the buffer has the first components first. -/
def eigRowCalls : List (Op Int String) :=
  [.register "v" .real (.num 2) "pixel" "" false, .initGlobalOrder [2] [] [] .automatic,
   .write "v" 0 10, .write "v" 1 20, .write "v" 2 11, .write "v" 3 21]

/-- The collection after these calls. -/
def eigRow : Coll Int String := ((Coll.empty true 1 .rowMajor [("pixel", 1)]).run stableSort eigRowCalls).getD
  (Coll.empty true 1 .rowMajor [("pixel", 1)])

theorem eigRow_built : Built stableSort eigRow := by
  refine ⟨true, 1, .rowMajor, [], Coll.empty true 1 .rowMajor [("pixel", 1)], by simp [SMap.Sorted],
    by intro tag n h; simp [SMap.find] at h, by decide +kernel, ?_⟩
  refine reachable_of_run (ops := eigRowCalls) ?_ Reachable.start ?_
  · intro d op hop
    simp only [eigRowCalls, List.mem_cons, List.mem_nil_iff, or_false] at hop
    rcases hop with rfl | rfl | rfl | rfl | rfl | rfl <;> simp [Adm, Comps.toNb]
  · have : ((Coll.empty true 1 .rowMajor [("pixel", 1)]).run stableSort eigRowCalls).isSome = true := by decide +kernel
    unfold eigRow
    rw [Option.isSome_iff_exists] at this
    obtain ⟨c, hc⟩ := this
    rw [hc]; rfl

/-- **C74** is false of row-major collections: `eigen_sub_pt()` is not refused, and its first column holds the first
components of both pixels. -/
theorem C74_false : ¬ C74_statement := by
  intro h
  have := h eigRow "v" ⟨.real, [2], 2, 1, "pixel", "", 0, 2, [10, 20, 11, 21], true⟩
    ⟨eigRow_built, by decide +kernel, by decide +kernel, by decide +kernel, by decide +kernel, by decide +kernel⟩
    (Or.inr (by decide +kernel)) ⟨2, 2⟩ (by decide +kernel) [1] 0 [0] (by decide) (by decide) (by decide +kernel)
    (by decide +kernel) 11 (by decide +kernel)
  revert this
  decide +kernel

/-- **C74** Contiguous fields can be refused: the row-major strides of 5 × 1 × 3 pixels (the failing case of C04). -/
theorem C74_refused_contiguous :
    ((((Coll.empty true 3 .rowMajor [("pixel", 1)] : Coll Int String).run stableSort
        [.register "v" .real (.num 1) "pixel" "" false, .initGlobalOrder [5, 1, 3] [] [] .automatic]).map
      (fun c => (c.pixels.strides, (c.fields.find "v").map (fun f => eigenSubPt stableSort c f)))) =
    some ([3, 3, 1], some (.throw .fieldError))) ∧ DenseStrides [5, 1, 3] [3, 3, 1] :=
  ⟨by decide +kernel, by decide, [0, 1, 2], by decide, by simp [pick, Dense, maxIdx]⟩

end Verif.Props
