import Verif.Spec.FileProgram
import Verif.Props.Communicator
import Verif.Props.Grid
/-
C62: the entries of the pixels of local collections are those that `C62_new` asks for.
-/
namespace Verif.Props
open Verif Verif.Ccoord Verif.Layout Verif.Layout.FieldLayout Verif.RawMemory Verif.FileIO Verif.NetCDF
open Verif.Communicator

theorem dot_colMajor (acc : Int) : ∀ {nb loc c : List Int}, InBoxAt nb loc c →
    dot (accStrides acc nb) (relCoord c loc) = acc * colMajorNumber nb loc c
  | [], [], [], _ => by simp [accStrides, relCoord, dot, colMajorNumber]
  | n :: nb, l :: loc, c :: cs, h => by
    have := dot_colMajor (acc * n) h.2.2
    rw [relCoord] at this
    simp only [accStrides, relCoord, List.zipWith_cons_cons, dot, colMajorNumber, this]
    ring

/-- **C62** Pixels numbered by column-major index: the pixel with number `q` is at place `q` of the memory of a
column-major field of the collection. -/
theorem C62_places {f : IoField} {nb : List Int} (hp : Pos nb) (hl : f.loc.length = nb.length)
    (hs : f.layout.pixShape = nb) (hst : f.layout.pixStrides = accStrides 1 nb) {size : Nat}
    (hsize : (size : Int) = nbPixels nb) {coord : Int → List Int}
    (hc : ∀ q : Nat, q < size → getCcoord nb f.loc q = .ok (coord q)) :
    (∀ q : Nat, q < size → InBoxAt f.layout.pixShape f.loc (coord q) ∧
      dot f.layout.pixStrides (relCoord (coord q) f.loc) = q) ∧
    ∀ g, InBoxAt f.layout.pixShape f.loc g → ∃ q : Nat, q < size ∧ coord q = g := by
  obtain ⟨h1, h2⟩ := C01_col_major_round_trip nb f.loc hp hl
  rw [hs, hst]
  constructor
  · intro q hq
    obtain ⟨c, e1, e2, e3, -⟩ := h1 q (by omega) (by omega)
    rw [hc q hq] at e1
    cases e1
    refine ⟨e2, ?_⟩
    rw [dot_colMajor 1 e2, e3, one_mul]
  · intro g hg
    obtain ⟨-, e2, e3, e4⟩ := h2 g hg
    refine ⟨(colMajorNumber nb f.loc g).toNat, by omega, ?_⟩
    have := hc (colMajorNumber nb f.loc g).toNat (by omega)
    rw [show ((colMajorNumber nb f.loc g).toNat : Int) = colMajorNumber nb f.loc g by omega, e4] at this
    rw [show ((colMajorNumber nb f.loc g).toNat : Int) = colMajorNumber nb f.loc g by omega]
    exact (Res.ok.inj this).symm

/-- **C62** The numbers that the processes give the pixels of their local collections on registration are those of
one function of the pixels of the whole domain: different for different pixels, below the total number, and -1 for the
pixels that do not belong to the collection. -/
theorem C62_entries {ps : List LocalPart} (hnd : ∀ p ∈ ps, p.ids.Nodup)
    (hin : ∀ p ∈ ps, ∀ id ∈ p.ids, 0 ≤ id ∧ id < (p.size : Int))
    (hdist : ∀ p ∈ ps, ∀ q q' : Nat, q < p.size → q' < p.size → p.coord q = p.coord q' → q = q')
    (hap : ps.Pairwise fun p p' => ∀ q q' : Nat, q < p.size → q' < p'.size → p.coord q ≠ p'.coord q') :
    ∃ M : List Int → Int,
      (∀ r (h : r < ps.length) (e : Nat), (cumulativeSum (ps.map fun p => p.ids.length))[r]? = some e →
        markPixels ps[r].size (e - ps[r].ids.length) ps[r].ids = .ok (ps[r].entries M)) ∧
      (∀ p ∈ ps, ∀ q : Nat, q < p.size → ((q : Int) ∈ p.ids ↔ M (p.coord q) ≠ -1)) ∧
      (∀ g, M g ≠ -1 → 0 ≤ M g ∧ M g < (ps.map fun p => p.ids.length).sum) ∧
      ∀ g g', M g ≠ -1 → M g = M g' → g = g' := by
  classical
  obtain ⟨off, o1, o2, o3, o4⟩ := C33_offsets (ps.map fun p : LocalPart => p.ids.length)
  simp only [List.length_map] at o1 o2 o3 o4
  -- the place of a pixel
  have huniq : ∀ r r' (h : r < ps.length) (h' : r' < ps.length) (q q' : Nat), q < ps[r].size → q' < ps[r'].size →
      ps[r].coord q = ps[r'].coord q' → r = r' ∧ q = q' := by
    intro r r' h h' q q' hq hq' he
    rcases Nat.lt_trichotomy r r' with hlt | rfl | hlt
    · exact absurd he (List.pairwise_iff_getElem.1 hap r r' h h' hlt q q' hq hq')
    · exact ⟨rfl, hdist _ (List.getElem_mem h) q q' hq hq' he⟩
    · exact absurd he.symm (List.pairwise_iff_getElem.1 hap r' r h' h hlt q' q hq' hq)
  let Place (g : List Int) (rq : Nat × Nat) : Prop := ∃ h : rq.1 < ps.length, ps[rq.1].coord rq.2 = g ∧
    rq.2 < ps[rq.1].size ∧ (rq.2 : Int) ∈ ps[rq.1].ids
  let M (g : List Int) : Int :=
    if hx : ∃ rq, Place g rq then
      ((off[hx.choose.1]'(by obtain ⟨h, -⟩ := hx.choose_spec; omega) : Nat) : Int) +
        ((ps[hx.choose.1]'(hx.choose_spec.1)).ids.idxOf (hx.choose.2 : Int) : Nat)
    else -1
  have hM : ∀ r (h : r < ps.length) (q : Nat), q < ps[r].size → (q : Int) ∈ ps[r].ids →
      M (ps[r].coord q) = (off[r] : Nat) + (ps[r].ids.idxOf (q : Int) : Nat) := by
    intro r h q hq hm
    have hx : ∃ rq, Place (ps[r].coord q) rq := ⟨(r, q), h, rfl, hq, hm⟩
    have hspec := hx.choose_spec
    obtain ⟨h1, h2, h3, h4⟩ := hspec
    obtain ⟨er, eq⟩ := huniq _ _ h1 h _ _ h3 hq h2
    change (if hx : ∃ rq, Place (ps[r].coord q) rq then _ else _) = _
    rw [dif_pos hx]
    simp only [er, eq]
  have hM' : ∀ g, M g ≠ -1 → ∃ r, ∃ h : r < ps.length, ∃ q : Nat, q < ps[r].size ∧ (q : Int) ∈ ps[r].ids ∧
      ps[r].coord q = g := by
    intro g hg
    by_cases hx : ∃ rq, Place g rq
    · obtain ⟨⟨r, q⟩, h, h1, h2, h3⟩ := hx
      exact ⟨r, h, q, h2, h3, h1⟩
    · exact absurd (dif_neg hx) hg
  have hlt : ∀ r (h : r < ps.length) (q : Nat), (q : Int) ∈ ps[r].ids →
      off[r] ≤ off[r] + ps[r].ids.idxOf (q : Int) ∧ off[r] + ps[r].ids.idxOf (q : Int) < off[r] + ps[r].ids.length := by
    intro r h q hm
    have := List.idxOf_lt_length_of_mem hm
    omega
  have hout : ∀ r (h : r < ps.length) (q : Nat), q < ps[r].size → (q : Int) ∉ ps[r].ids → M (ps[r].coord q) = -1 := by
    intro r h q hq hni
    by_contra hne
    obtain ⟨r', h', q', e1, e2, e3⟩ := hM' _ hne
    obtain ⟨rfl, rfl⟩ := huniq _ _ h' h _ _ e1 hq e3
    exact hni e2
  refine ⟨M, ?_, ?_, ?_, ?_⟩
  · intro r h e he
    have h2 := o2 r h (by omega)
    simp only [List.getElem_map] at h2
    rw [h2] at he
    cases he
    have hoff : ((off[r] + ps[r].ids.length : Nat) : Int) - ps[r].ids.length = (off[r] : Nat) := by omega
    rw [hoff]
    obtain ⟨m, m1, m2, m3, m4⟩ := C37_marks (off := (off[r] : Nat)) (hnd _ (List.getElem_mem h)) (by omega)
      (hin _ (List.getElem_mem h))
    rw [m1]
    congr 1
    refine List.ext_getElem? fun q => ?_
    by_cases hq : q < ps[r].size
    · rw [LocalPart.entries, List.getElem?_map, List.getElem?_range hq, Option.map_some]
      by_cases hm : (q : Int) ∈ ps[r].ids
      · have hj := List.idxOf_lt_length_of_mem hm
        have := m3 _ hj
        rw [List.getElem_idxOf hj, Int.toNat_natCast] at this
        rw [this, hM r h q hq hm]
      · rw [m4 q hq hm, hout r h q hq hm]
    · rw [List.getElem?_eq_none (by omega), List.getElem?_eq_none (by simp [LocalPart.entries]; omega)]
  · intro p hp q hq
    obtain ⟨r, h, rfl⟩ := List.getElem_of_mem hp
    constructor
    · intro hm
      rw [hM r h q hq hm]
      omega
    · intro hne
      by_contra hni
      exact hne (hout r h q hq hni)
  · intro g hg
    obtain ⟨r, h, q, e1, e2, rfl⟩ := hM' g hg
    rw [hM r h q e1 e2]
    have := (o3 (off[r] + ps[r].ids.idxOf (q : Int))).2 ⟨r, h, by omega, by
      simp only [List.getElem_map]
      exact hlt r h q e2⟩
    omega
  · intro g g' hg he
    obtain ⟨r, h, q, e1, e2, rfl⟩ := hM' g hg
    obtain ⟨r', h', q', e1', e2', rfl⟩ := hM' g' (he ▸ hg)
    rw [hM r h q e1 e2, hM r' h' q' e1' e2'] at he
    have a := hlt r h q e2
    have b := hlt r' h' q' e2'
    have hr : r = r' := by
      refine o4 (off[r] + ps[r].ids.idxOf (q : Int)) r r' h h' (by omega) (by omega) a.1 ?_ ?_ ?_
      · simp only [List.getElem_map]; exact a.2
      · omega
      · simp only [List.getElem_map]; omega
    subst hr
    have hq : ps[r].ids.idxOf (q : Int) = ps[r].ids.idxOf (q' : Int) := by omega
    have := (List.idxOf_inj e2).1 hq
    rw [this]

end Verif.Props
