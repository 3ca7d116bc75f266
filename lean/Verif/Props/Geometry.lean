import Verif.Model.Geometry
import Verif.Spec.Geometry
import Verif.Props.Grid
import Mathlib.Algebra.Order.Floor.Ring
import Mathlib.Data.Rat.Floor
import Mathlib.Tactic.Ring
import Mathlib.Tactic.FieldSimp
/-
Property C90: the pixels of a grid tile the domain.
-/
namespace Verif.Props
open Verif Verif.Ccoord Verif.Geometry

variable {K : Type} [Field K]

/-! ## Volumes -/

theorem computeVolume_eq (v : K) (l : List K) : computeVolume v l = v * l.prod := by
  induction l generalizing v with
  | nil => simp [computeVolume]
  | cons a l ih => rw [computeVolume, ih, List.prod_cons, mul_assoc]

theorem pixelVolumeLoop_eq [DecidableEq K] {nb : List Int} {l : List K} (hl : l.length = nb.length)
    (h : ∀ n ∈ nb, (n : K) ≠ 0) (v : K) :
    ∃ w, pixelVolumeLoop v nb l = some w ∧ (nbPixels nb : K) * w = v * l.prod := by
  induction nb generalizing l v with
  | nil =>
    have := List.length_eq_zero_iff.1 hl
    subst this
    exact ⟨v, rfl, by simp [nbPixels]⟩
  | cons n nb ih =>
    cases l with
    | nil => simp at hl
    | cons a l =>
      have hn := h n (by simp)
      obtain ⟨w, hw, he⟩ := ih (l := l) (by simpa using hl) (fun m hm => h m (by simp [hm])) (v * (a / n))
      refine ⟨w, by rw [pixelVolumeLoop, if_neg hn, hw], ?_⟩
      rw [nbPixels, Int.cast_mul, mul_assoc, he, List.prod_cons]
      field_simp

/-- **C90** The volumes of the pixels add up to the volume of the domain. -/
theorem C90_volume [DecidableEq K] {nb : List Int} {lengths : List K} (hl : lengths.length = nb.length)
    (h : ∀ n ∈ nb, (n : K) ≠ 0) :
    ∃ v, pixelVolume nb lengths = some v ∧ (nbPixels nb : K) * v = computeVolume 1 lengths := by
  obtain ⟨w, hw, he⟩ := pixelVolumeLoop_eq hl h 1
  exact ⟨w, hw, by rw [he, computeVolume_eq]⟩

example : pixelVolume [4, 6] [(2 : ℚ), 3] = some (1 / 4) ∧ computeVolume 1 [(2 : ℚ), 3] = 6 ∧
    nbPixels [4, 6] = 24 := by decide +kernel

/-- **C90** Arguments of different dimensions are not rejected: the surplus directions of the longer one
do not count. -/
theorem C90_dimensions [DecidableEq K] (nb : List Int) (lengths : List K) :
    pixelVolume nb lengths =
      pixelVolume (nb.take lengths.length) (lengths.take nb.length) := by
  unfold pixelVolume
  generalize (1 : K) = v
  induction nb generalizing lengths v with
  | nil => simp [pixelVolumeLoop]
  | cons n nb ih =>
    cases lengths with
    | nil => simp [pixelVolumeLoop]
    | cons a l =>
      simp only [List.length_cons, List.take_succ_cons, pixelVolumeLoop]
      rw [ih]

example : pixelVolume [4, 6] [(2 : ℚ), 3, 5] = some (1 / 4) := by decide +kernel

/-! ## Positions -/

/-- **C90** The position of a pixel in a grid of cubic pixels is the one for equal edges. -/
theorem C90_cubic (cc : List Int) (pix : K) :
    getVectorCubic cc pix = getVector cc (getCube cc.length pix) := by
  unfold getVectorCubic getCube
  induction cc with
  | nil => rfl
  | cons c cc ih => rw [List.map_cons, ih]; rfl

example : getVectorCubic [2, 3] (1 / 2 : ℚ) = [1, 3 / 2] := by decide +kernel

variable [LinearOrder K] [IsStrictOrderedRing K] [FloorRing K]

/-- **C90** The pixels tile the domain: every point of a box that is cut into pixels lies in the pixel of
exactly one grid point, whose corner is the position `get_vector` gives. -/
theorem C90_tiles {nb : List Int} {lengths x : List K} (hp : Pos nb) (hL : ∀ l ∈ lengths, 0 < l)
    (hl : lengths.length = nb.length) (hx : InCell (lengths.map fun _ => 0) lengths x) :
    ∃ cc, InBox nb cc ∧ InCell (getVector cc (pixelEdges nb lengths)) (pixelEdges nb lengths) x ∧
      ∀ cc', InBox nb cc' → InCell (getVector cc' (pixelEdges nb lengths)) (pixelEdges nb lengths) x →
        cc' = cc := by
  induction nb generalizing lengths x with
  | nil =>
    have := List.length_eq_zero_iff.1 hl
    subst this
    cases x with
    | nil =>
      refine ⟨[], trivial, trivial, ?_⟩
      intro cc' h _
      cases cc' with
      | nil => rfl
      | cons c cc' => exact h.elim
    | cons a x => exact hx.elim
  | cons n nb ih =>
    cases lengths with
    | nil => simp at hl
    | cons l lengths =>
      cases x with
      | nil => exact hx.elim
      | cons y x =>
        obtain ⟨hy0, hy1, hx'⟩ := hx
        have hn : 0 < n := hp n (by simp)
        have hnK : (0 : K) < (n : K) := by exact_mod_cast hn
        have hl0 : 0 < l := hL l (by simp)
        obtain ⟨cc, h1, h2, h3⟩ := ih (lengths := lengths) (x := x) (fun m hm => hp m (by simp [hm]))
          (fun m hm => hL m (by simp [hm])) (by simpa using hl) hx'
        have hh : 0 < l / (n : K) := div_pos hl0 hnK
        have key : ∀ c : Int, (l / (n : K) * (c : K) ≤ y ∧ y < l / (n : K) * (c : K) + l / (n : K)) ↔
            c = ⌊y / (l / (n : K))⌋ := by
          intro c
          rw [eq_comm, Int.floor_eq_iff, le_div_iff₀ hh, div_lt_iff₀ hh, add_mul, one_mul,
            mul_comm (c : K)]
        rw [zero_add] at hy1
        have hfl : 0 ≤ ⌊y / (l / (n : K))⌋ ∧ ⌊y / (l / (n : K))⌋ < n := by
          refine ⟨Int.floor_nonneg.2 (div_nonneg hy0 hh.le), ?_⟩
          rw [Int.floor_lt, div_lt_iff₀ hh, mul_div_cancel₀ _ hnK.ne']
          exact hy1
        refine ⟨⌊y / (l / (n : K))⌋ :: cc, ⟨hfl.1, hfl.2, h1⟩, ?_, ?_⟩
        · have := (key _).2 rfl
          exact ⟨this.1, this.2, h2⟩
        · intro cc' hb hc
          cases cc' with
          | nil => exact hb.elim
          | cons c cc' =>
            obtain ⟨_, _, hb'⟩ := hb
            obtain ⟨ha, hb2, hc'⟩ := hc
            rw [(key c).1 ⟨ha, hb2⟩, h3 cc' hb' hc']

example : InCell [(0 : ℚ), 0] [2, 3] [5 / 4, 11 / 4] ∧
    InCell (getVector [2, 5] (pixelEdges [4, 6] [(2 : ℚ), 3])) (pixelEdges [4, 6] [(2 : ℚ), 3])
      [5 / 4, 11 / 4] := by
  simp only [InCell, getVector, pixelEdges]
  norm_num

/-- **C90** No pixel of the grid reaches out of the domain. -/
theorem C90_inside {nb : List Int} {lengths x : List K} {cc : List Int} (hL : ∀ l ∈ lengths, 0 < l)
    (hl : lengths.length = nb.length) (hb : InBox nb cc)
    (hx : InCell (getVector cc (pixelEdges nb lengths)) (pixelEdges nb lengths) x) :
    InCell (lengths.map fun _ => 0) lengths x := by
  induction nb generalizing lengths x cc with
  | nil =>
    have := List.length_eq_zero_iff.1 hl
    subst this
    cases cc with
    | cons c cc => exact hb.elim
    | nil => cases x with
      | nil => trivial
      | cons a x => exact hx.elim
  | cons n nb ih =>
    cases lengths with
    | nil => simp at hl
    | cons l lengths =>
      cases cc with
      | nil => exact hb.elim
      | cons c cc =>
        cases x with
        | nil => exact hx.elim
        | cons y x =>
          obtain ⟨hc0, hcn, hb'⟩ := hb
          obtain ⟨h1, h2, hx'⟩ := hx
          have hnK : (0 : K) < (n : K) := by exact_mod_cast (by omega : 0 < n)
          have hh : 0 < l / (n : K) := div_pos (hL l (by simp)) hnK
          refine ⟨le_trans (mul_nonneg hh.le (by exact_mod_cast hc0)) h1, ?_,
            ih (fun m hm => hL m (by simp [hm])) (by simpa using hl) hb' hx'⟩
          rw [zero_add]
          have hc1 : (c : K) + 1 ≤ (n : K) := by exact_mod_cast (by omega : c + 1 ≤ n)
          calc y < l / (n : K) * (c : K) + l / (n : K) := h2
            _ = l / (n : K) * ((c : K) + 1) := by ring
            _ ≤ l / (n : K) * (n : K) := mul_le_mul_of_nonneg_left hc1 hh.le
            _ = l := div_mul_cancel₀ _ hnK.ne'

example : InBox [4, 6] [3, 5] ∧ pixelEdges [4, 6] [(2 : ℚ), 3] = [1 / 2, 1 / 2] := by decide +kernel

/-! ## Numbering pixels in python -/

theorem inBoxAt_zero {nb cc : List Int} : InBoxAt nb (List.replicate nb.length 0) cc ↔ InBox nb cc := by
  induction nb generalizing cc with
  | nil => cases cc <;> simp [InBoxAt, InBox]
  | cons n nb ih =>
    cases cc with
    | nil => simp [InBoxAt, InBox, List.replicate_succ]
    | cons c cc => simp [InBoxAt, InBox, List.replicate_succ, ih]

/-- **C90** In python, `get_domain_index` undoes `get_domain_ccoord` and the other way round, on grids of
at most 2^31 pixels in up to three dimensions. -/
theorem C90_python_partial {nb : List Int} (hd : pyDims nb = true) (hp : Pos nb) (hs : nbPixels nb ≤ 2 ^ 31) :
    (∀ i, 0 ≤ i → i < nbPixels nb →
      ∃ c, domainCcoord nb i = some (.ok c) ∧ InBox nb c ∧ domainIndex nb c = some (.ok i)) ∧
    (∀ c, InBox nb c →
      ∃ i, domainIndex nb c = some (.ok i) ∧ 0 ≤ i ∧ i < nbPixels nb ∧ domainCcoord nb i = some (.ok c)) := by
  obtain ⟨h1, h2⟩ := C01_col_major_round_trip nb (List.replicate nb.length 0) hp (by simp)
  constructor
  · intro i h0 hi
    obtain ⟨c, hc, hb, hn, _⟩ := h1 i h0 hi
    have hlen := (InBoxAt.lengths hb).2
    refine ⟨c, by rw [domainCcoord, if_pos hd, hc], inBoxAt_zero.1 hb, ?_⟩
    rw [domainIndex, if_pos ⟨hd, by omega⟩, C07_partial hb hs, hn]
  · intro c hc
    have hb := inBoxAt_zero.2 hc
    have hlen := (InBoxAt.lengths hb).2
    obtain ⟨_, h0, hlt, hr⟩ := h2 c hb
    exact ⟨_, by rw [domainIndex, if_pos ⟨hd, by omega⟩, C07_partial hb hs], h0, hlt,
      by rw [domainCcoord, if_pos hd, hr]⟩

example : domainCcoord [3, 4] 7 = some (.ok [1, 2]) ∧ domainIndex [3, 4] [1, 2] = some (.ok 7) ∧
    domainIndex [3, 4] [1, 2, 0] = none ∧ domainCcoord [2, 2, 2, 2] 5 = none := by decide +kernel

theorem digitsFast_mod {nb loc : List Int} (hp : Pos nb) (i : Int) :
    digitsFast nb loc (i % nbPixels nb) = digitsFast nb loc i := by
  induction nb generalizing loc i with
  | nil => cases loc <;> rfl
  | cons n nb ih =>
    cases loc with
    | nil => rfl
    | cons l loc =>
      have hn : 0 < n := hp n (by simp)
      have hp' : Pos nb := fun m hm => hp m (by simp [hm])
      have hR : 0 < nbPixels nb := by
        rw [nbPixels_eq_prod]; exact prod_pos_of_pos hp'
      have h1 : i % (n * nbPixels nb) % n = i % n := Int.emod_emod_of_dvd _ (Dvd.intro _ rfl)
      have h2 : i % (n * nbPixels nb) / n = i / n % nbPixels nb := by
        have e1 := Int.emod_add_mul_ediv i (n * nbPixels nb)
        have e2 : i / (n * nbPixels nb) = i / n / nbPixels nb := (Int.ediv_ediv_of_nonneg hn.le).symm
        have e3 := Int.emod_add_mul_ediv (i / n) (nbPixels nb)
        have e4 : i % (n * nbPixels nb) = i + n * (-(nbPixels nb * (i / (n * nbPixels nb)))) := by
          linarith
        rw [e4, Int.add_mul_ediv_left _ _ hn.ne', e2]
        linarith
      rw [nbPixels, digitsFast, digitsFast, h1, h2, ih hp']

/-- **C90** `get_domain_ccoord` does not reject numbers past the last pixel: it starts again with the
first one. -/
theorem C90_python_wraps {nb : List Int} (hp : Pos nb) {i : Int} (hi : 0 ≤ i) :
    domainCcoord nb i = domainCcoord nb (i % nbPixels nb) := by
  have hR : 0 < nbPixels nb := by
    rw [nbPixels_eq_prod]; exact prod_pos_of_pos hp
  unfold domainCcoord getCcoord
  rw [getCcoordAux_eq (by simp) hp (by norm_num) hi,
    getCcoordAux_eq (by simp) hp (by norm_num) (Int.emod_nonneg _ hR.ne'), Int.ediv_one, Int.ediv_one,
    digitsFast_mod hp]

example : domainCcoord [3, 4] 19 = some (.ok [1, 2]) ∧ domainCcoord [3, 4] (-1) = some (.ok [-1, 0]) ∧
    domainCcoord [3, 0] 2 = some .ub := by decide +kernel

/-- The full claim about numbering in python: `get_domain_index` is right on every grid with fewer than
2^63 pixels, and `get_domain_ccoord` gives pixels of the grid only. -/
def C90_statement : Prop :=
  ∀ nb : List Int, pyDims nb = true → Pos nb → nbPixels nb < 2 ^ 63 →
    (∀ c, InBox nb c → domainIndex nb c = some (.ok (colMajorNumber nb (List.replicate nb.length 0) c))) ∧
    (∀ i c, domainCcoord nb i = some (.ok c) → InBox nb c)

/-- **C90** The numbering in python is not right everywhere: the pixel (0, 32768) of a grid of 65536 ×
65536 pixels gets a negative number, and the pixel number -1 of any grid of two by two is (-1, 0). -/
theorem C90_false : ¬ C90_statement := by
  intro h
  have := (h [2, 2] (by decide) (by decide) (by decide)).2 (-1) [-1, 0] (by decide +kernel)
  revert this
  decide

example : domainIndex [65536, 65536] [0, 32768] = some (.ok (-2147483648)) := by decide +kernel

/-- **C90** A cube has the same extent in every direction, so that its pixels number the power; other
dimensions than 1, 2 and 3 are rejected. -/
theorem C90_cube (dim n : Int) :
    (1 ≤ dim ∧ dim ≤ 3 → ∃ nb, dynGetCube dim n = .ok nb ∧ (nb.length : Int) = dim ∧ (∀ m ∈ nb, m = n) ∧
      nbPixels nb = n ^ dim.toNat) ∧
    (¬ (1 ≤ dim ∧ dim ≤ 3) → dynGetCube dim n = .throw .runtimeError) := by
  constructor
  · rintro ⟨h1, h2⟩
    have : dim = 1 ∨ dim = 2 ∨ dim = 3 := by omega
    rcases this with rfl | rfl | rfl
    · exact ⟨[n], rfl, rfl, by simp, by simp [nbPixels]⟩
    · exact ⟨[n, n], rfl, rfl, by simp, by simp [nbPixels]; ring⟩
    · exact ⟨[n, n, n], rfl, rfl, by simp, by simp [nbPixels]; ring⟩
  · intro h
    unfold dynGetCube
    rw [if_neg (by omega), if_neg (by omega), if_neg (by omega)]

example : dynGetCube 3 5 = .ok [5, 5, 5] ∧ dynGetCube 4 5 = .throw .runtimeError := by decide

end Verif.Props
