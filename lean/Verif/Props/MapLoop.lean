import Verif.Lemmas.MapLoop
import Verif.Props.FieldMap
/-
C84, C85: loops over several maps at once, and assignments to all entries of a map.
-/
set_option linter.unusedSectionVars false

namespace Verif.Props
open Verif Verif.Ccoord Verif.Layout Verif.Collection Verif.Collection.Coll

variable {α U : Type} [Inhabited α] [DecidableEq U]

/-- A map as a program gets it for an allocated field (nothing was appended to the field). -/
structure MapOf (c : Coll α U) (m : FieldMap) (f : Field α U) : Prop where
  find : c.fields.find m.name = some f
  made : Made c m.name m.iter m
  cur : f.cur = f.nbSub * c.nbBuf
  small : f.vals.length < 18446744073709551616

/-- The values of the field `x` at the point `i`, where `it x` says what points are: pixels or sub-points. -/
def envAt (c : Coll α U) (it : String → IterUnit) (i : Nat) (x : String) : List α :=
  match c.fields.find x with
  | some f => chunk f.vals (perIter f (it x)) i
  | none => []

/-- Scalars per entry of the maps on a field. -/
def scalars (c : Coll α U) (it : String → IterUnit) (x : String) : Nat :=
  match c.fields.find x with
  | some f => perIter f (it x)
  | none => 0

section
variable {srt : SortFn} {c : Coll α U}

theorem MapOf.facts (hb : Built srt c) (hi : c.initialised = true) (hd : c.nbBuf = c.nbPixels) {m : FieldMap}
    {f : Field α U} (h : MapOf c m f) : FieldMap.On c m f (perIter f m.iter) ∧
      FieldMap.size c m = .ok (nbIter c f m.iter) ∧ nbIter c f m.iter * perIter f m.iter + f.pad = f.vals.length := by
  obtain ⟨hon, hit, hname⟩ := made_on hb.size hi h.find h.made
  exact ⟨hon, size_of_map hb.size hi h.find hd h.cur h.small rfl rfl⟩

/-! ## C84 -/

/-- **C84** A loop over any number of maps at once does, for every point up to the end of the shortest map, what its body
does with the values of that point alone, also when several maps are on one field and when earlier statements change
what later ones read.  The entries beyond and everything else in the collection stay as they are. -/
theorem C84_shortest (hb : Built srt c) (hi : c.initialised = true) (hd : c.nbBuf = c.nbPixels) {ms : List FieldMap}
    {it : String → IterUnit} {n : Nat} (hms : ∀ m ∈ ms, m.iter = it m.name ∧ ∃ f, MapOf c m f ∧ n ≤ nbIter c f m.iter)
    (hn : ∃ m ∈ ms, ∃ f, MapOf c m f ∧ nbIter c f m.iter = n) {body : List (LoopStmt α)}
    (hbody : ∀ st ∈ body, st.Fits (ms.map (fun m => scalars c it m.name))) :
    ∃ c', FieldMap.forZip c ms body = .ok c' ∧ c' = { c with fields := c'.fields } ∧
      (∀ x, x ∉ ms.map FieldMap.name → c'.fields.find x = c.fields.find x) ∧
      ∀ x f, c.fields.find x = some f → ∃ vals, c'.fields.find x = some (f.withVals vals) ∧
        vals.length = f.vals.length ∧
        (∀ i j, i < n → j < perIter f (it x) →
          vals[i * perIter f (it x) + j]? = (pointRun (ms.map FieldMap.name) body (envAt c it i) x)[j]?) ∧
        (∀ p, n * perIter f (it x) ≤ p → vals[p]? = f.vals[p]?) := by
  have hk : ∀ {m f}, MapOf c m f → m.iter = it m.name → scalars c it m.name = perIter f m.iter := by
    intro m f h he
    rw [scalars, h.find, he]
  have hus : FieldMap.Usable c ms (scalars c it) (fun _ => n) := by
    refine ⟨fun m hm => ?_, hb.size.wf.fields_sorted⟩
    obtain ⟨he, f, hf, hle⟩ := hms m hm
    obtain ⟨h1, h2, h3⟩ := hf.facts hb hi hd
    refine ⟨f, by rw [hk hf he]; exact h1, ?_⟩
    rw [hk hf he]
    have := Nat.mul_le_mul_right (perIter f m.iter) hle
    show n * _ ≤ _
    omega
  have hsz : ∀ m ∈ ms, FieldMap.size c m = .ok (match c.fields.find m.name with
      | some f => nbIter c f m.iter
      | none => 0) := by
    intro m hm
    obtain ⟨he, f, hf, hle⟩ := hms m hm
    obtain ⟨h1, h2, h3⟩ := hf.facts hb hi hd
    rw [h2, hf.find]
  obtain ⟨c', h1, h2, h3⟩ := FieldMap.forZip_ok hus hbody hsz (by
      intro m hm
      obtain ⟨he, f, hf, hle⟩ := hms m hm
      rw [hf.find]; exact hle) (by
      obtain ⟨m, hm, f, hf, e⟩ := hn
      exact ⟨m, hm, by rw [hf.find]; exact e⟩)
  have hlook : ∀ i, FieldMap.lookAt c (scalars c it) i = envAt c it i := by
    intro i
    funext x
    rw [FieldMap.lookAt, envAt, scalars]
    rcases c.fields.find x with _ | f <;> rfl
  refine ⟨c', h1, h2.rest, h2.other, fun x f hf => ?_⟩
  obtain ⟨vals, g1, g2, g3⟩ := h2.field x f hf
  have hx : scalars c it x = perIter f (it x) := by rw [scalars, hf]
  rw [hx] at g3
  refine ⟨vals, g1, g2, fun i j hin hj => ?_, g3⟩
  have := h3 i x
  rw [if_pos hin, hlook] at this
  rw [← this, FieldMap.lookAt, g1]
  simp only [chunk, hx]
  rw [List.getElem?_take_of_lt hj, List.getElem?_drop]

/-- The full statement: a loop over maps of one collection goes over all their points. -/
def C84_statement : Prop :=
  ∀ (srt : SortFn) (c c' : Coll Int String) (ms : List FieldMap) (it : String → IterUnit) (body : List (LoopStmt Int)),
    Built srt c → c.initialised = true → c.nbBuf = c.nbPixels →
    (∀ m ∈ ms, m.iter = it m.name ∧ ∃ f, MapOf c m f) →
    (∀ st ∈ body, st.Fits (ms.map (fun m => scalars c it m.name))) → FieldMap.forZip c ms body = .ok c' →
    ∀ m ∈ ms, ∀ f, MapOf c m f → ∀ i, i < nbIter c f m.iter →
      envAt c' it i m.name = pointRun (ms.map FieldMap.name) body (envAt c it i) m.name

/-- **C84** The part that holds: maps over pixels, or over the sub-points of fields with the same number of them.  Every
point of every field is treated. -/
theorem C84_pointwise_partial (hb : Built srt c) (hi : c.initialised = true) (hd : c.nbBuf = c.nbPixels)
    {ms : List FieldMap} (hne : ms ≠ []) {it : String → IterUnit} {n : Nat}
    (hms : ∀ m ∈ ms, m.iter = it m.name ∧ ∃ f, MapOf c m f ∧ nbIter c f m.iter = n) {body : List (LoopStmt α)}
    (hbody : ∀ st ∈ body, st.Fits (ms.map (fun m => scalars c it m.name))) :
    ∃ c', FieldMap.forZip c ms body = .ok c' ∧ c' = { c with fields := c'.fields } ∧
      (∀ x, x ∉ ms.map FieldMap.name → c'.fields.find x = c.fields.find x) ∧
      ∀ m ∈ ms, ∀ f, c.fields.find m.name = some f → ∃ vals, c'.fields.find m.name = some (f.withVals vals) ∧
        vals.length = f.vals.length ∧
        (∀ i j, i < nbIter c f m.iter → j < perIter f m.iter → vals[i * perIter f m.iter + j]? =
          (pointRun (ms.map FieldMap.name) body (envAt c it i) m.name)[j]?) ∧
        (∀ p, f.vals.length - f.pad ≤ p → vals[p]? = f.vals[p]?) := by
  obtain ⟨m0, hm0⟩ := List.exists_mem_of_ne_nil ms hne
  obtain ⟨c', h1, h2, h3, h4⟩ := C84_shortest hb hi hd (n := n)
    (fun m hm => ⟨(hms m hm).1, by obtain ⟨-, f, hf, e⟩ := hms m hm; exact ⟨f, hf, by omega⟩⟩)
    ⟨m0, hm0, (hms m0 hm0).2⟩ hbody
  refine ⟨c', h1, h2, h3, fun m hm f hf => ?_⟩
  obtain ⟨he, f', hf', en⟩ := hms m hm
  have : f' = f := by have := hf'.find; rw [hf] at this; cases this; rfl
  subst this
  obtain ⟨-, -, e3⟩ := hf'.facts hb hi hd
  obtain ⟨vals, g1, g2, g3, g4⟩ := h4 m.name f' hf
  rw [← he, ← en] at g3 g4
  exact ⟨vals, g1, g2, g3, fun p hp => g4 p (by omega)⟩

end

/-- Maps over the sub-points of the tensor fields and over the pixels of the scalar field of `exAfter`. -/
def exStrain : FieldMap := ⟨"strain", .subPt, 4, 2, 2, true⟩
def exStress : FieldMap := ⟨"stress", .subPt, 4, 4, 1, true⟩
def exFlag : FieldMap := ⟨"flag", .pixel, 1, 1, 1, true⟩

theorem exMapOf {m : FieldMap} {cur nbSub nbComp : Int} {len : Nat}
    (h : (exAfter.fields.find m.name).map (fun f => (f.cur, f.nbSub, f.nbComp, f.vals.length)) =
      some (cur, nbSub, nbComp, len)) (hm : Made exAfter m.name m.iter m) (hc : cur = nbSub * exAfter.nbBuf)
    (hl : len < 18446744073709551616) : ∃ f, MapOf exAfter m f ∧ f.nbSub = nbSub ∧ f.nbComp = nbComp := by
  rw [Option.map_eq_some_iff] at h
  obtain ⟨f, h1, h2⟩ := h
  simp only [Prod.mk.injEq] at h2
  obtain ⟨rfl, rfl, rfl, rfl⟩ := h2
  exact ⟨f, ⟨h1, hm, hc, hl⟩, rfl, rfl⟩

theorem exStrain_of : ∃ f, MapOf exAfter exStrain f ∧ f.nbSub = 4 ∧ f.nbComp = 4 :=
  exMapOf (cur := 24) (len := 96) (by decide +kernel) (Or.inr (Or.inl ⟨2, by decide, by decide +kernel⟩))
    (by decide +kernel) (by decide)
theorem exStress_of : ∃ f, MapOf exAfter exStress f ∧ f.nbSub = 4 ∧ f.nbComp = 4 :=
  exMapOf (cur := 24) (len := 96) (by decide +kernel) (Or.inl (by decide +kernel)) (by decide +kernel) (by decide)
theorem exFlag_of : ∃ f, MapOf exAfter exFlag f ∧ f.nbSub = 1 ∧ f.nbComp = 1 :=
  exMapOf (cur := 6) (len := 6) (by decide +kernel)
    (Or.inr (Or.inr ⟨1, 1, by decide, by decide +kernel⟩)) (by decide +kernel) (by decide)

theorem exAfter_pixels : exAfter.nbPixels = 6 ∧ exAfter.initialised = true ∧ exAfter.nbBuf = exAfter.nbPixels := by
  decide +kernel

/-- The body of a loop over `strain`, `stress` and again `strain`: `stress = 2 * strain; strain = strain + stress`. -/
def exBody : List (LoopStmt Int) :=
  [⟨1, fun es => (es.getD 0 []).map (2 * ·)⟩, ⟨2, fun es => List.zipWith (· + ·) (es.getD 0 []) (es.getD 1 [])⟩]

/-- The hypotheses are met. -/
example : (∀ m ∈ [exStrain, exStress, exStrain], m.iter = (fun _ => IterUnit.subPt) m.name ∧
      ∃ f, MapOf exAfter m f ∧ nbIter exAfter f m.iter = 24) ∧
    (∀ st ∈ exBody, st.Fits ([exStrain, exStress, exStrain].map (fun m => scalars exAfter (fun _ => .subPt) m.name))) := by
  have hs := exAfter_pixels.1
  constructor
  · intro m hm
    simp only [List.mem_cons, List.not_mem_nil, or_false] at hm
    rcases hm with rfl | rfl | rfl
    · obtain ⟨f, h, e, -⟩ := exStrain_of
      exact ⟨rfl, f, h, by simp [nbIter, exStrain, e, hs]⟩
    · obtain ⟨f, h, e, -⟩ := exStress_of
      exact ⟨rfl, f, h, by simp [nbIter, exStress, e, hs]⟩
    · obtain ⟨f, h, e, -⟩ := exStrain_of
      exact ⟨rfl, f, h, by simp [nbIter, exStrain, e, hs]⟩
  · have hk : [exStrain, exStress, exStrain].map (fun m => scalars exAfter (fun _ => .subPt) m.name) = [4, 4, 4] := by
      decide +kernel
    rw [hk]
    intro st hst
    simp only [exBody, List.mem_cons, List.not_mem_nil, or_false] at hst
    rcases hst with rfl | rfl
    · refine ⟨by decide, fun es he => ?_⟩
      obtain ⟨a, b, d, rfl⟩ : ∃ a b d, es = [a, b, d] :=
        List.length_eq_three.1 (by simpa using congrArg List.length he)
      simp only [List.map_cons, List.map_nil, List.cons.injEq, and_true] at he
      simp [he]
    · refine ⟨by decide, fun es he => ?_⟩
      obtain ⟨a, b, d, rfl⟩ : ∃ a b d, es = [a, b, d] :=
        List.length_eq_three.1 (by simpa using congrArg List.length he)
      simp only [List.map_cons, List.map_nil, List.cons.injEq, and_true] at he
      simp [he]

/-- The hypotheses of `C84_shortest` are met by maps with different numbers of entries. -/
example : ∃ m ∈ [exFlag, exStrain], ∃ f, MapOf exAfter m f ∧ nbIter exAfter f m.iter = 6 := by
  obtain ⟨f, h, -⟩ := exFlag_of
  exact ⟨exFlag, by simp, f, h, by simp [nbIter, exFlag, exAfter_pixels.1]⟩

/-- **C84** is false of maps with different numbers of entries: in a loop over a map over pixels and a map over
sub-points, the round of pixel `i` has sub-point `i`, and most sub-points are not visited. -/
theorem C84_false : ¬ C84_statement := by
  intro h
  have h1 := h stableSort exAfter
    (match FieldMap.forZip exAfter [exFlag, exStrain] [⟨1, fun _ => [7, 7, 7, 7]⟩] with | .ok c => c | _ => exAfter)
    [exFlag, exStrain] (fun x => if x = "flag" then .pixel else .subPt) [⟨1, fun _ => [7, 7, 7, 7]⟩] exAfter_built
    exAfter_pixels.2.1 exAfter_pixels.2.2 (by
      intro m hm
      simp only [List.mem_cons, List.not_mem_nil, or_false] at hm
      rcases hm with rfl | rfl
      · obtain ⟨f, h, -⟩ := exFlag_of
        exact ⟨by decide, f, h⟩
      · obtain ⟨f, h, -⟩ := exStrain_of
        exact ⟨by decide, f, h⟩) (by
      have hk : [exFlag, exStrain].map (fun m => scalars exAfter (fun x => if x = "flag" then .pixel else .subPt) m.name) =
        [1, 4] := by decide +kernel
      rw [hk]
      intro st hst
      rw [List.mem_singleton] at hst
      subst hst
      exact ⟨by decide, fun es he => rfl⟩) (by decide +kernel)
  obtain ⟨f, hf, e, -⟩ := exStrain_of
  have h2 := h1 exStrain (by simp) f hf 6 (by simp [nbIter, exStrain, e, exAfter_pixels.1])
  revert h2
  decide +kernel

/-! ## C85 -/

section
variable {srt : SortFn} {c : Coll α U}

/-- The full statement: `m op= m2[q]` changes all entries of `m` with the value that `m2[q]` has when it is called. -/
def C85_statement : Prop :=
  ∀ (srt : SortFn) (c c' : Coll Int String) (m m2 : FieldMap) (f f2 : Field Int String) (op : Int → Int → Int) (q : Nat)
    (v : List Int), Built srt c → c.initialised = true → c.nbBuf = c.nbPixels → MapOf c m f → MapOf c m2 f2 →
    FieldMap.access c m2 q = .ok v → FieldMap.assignEntry c m m2 op q = .ok c' → q < nbIter c f2 m2.iter →
    FieldMap.assign c m op m2.rows m2.cols v = .ok c'

/-- **C85** What `m op= m2[q]` does: entries get the value that `m2[q]` has at the call, but if `m2[q]` is an entry of the
same field, those behind it get the value that it has been given itself. -/
theorem C85_exact (hb : Built srt c) (hi : c.initialised = true) (hd : c.nbBuf = c.nbPixels) {m m2 : FieldMap}
    {f f2 : Field α U} (hm : MapOf c m f) (hm2 : MapOf c m2 f2) (hr : m2.rows = m.rows) (hc : m2.cols = m.cols)
    (op : α → α → α) {q : Nat} (hq : q < nbIter c f2 m2.iter) :
    ∃ c' v vals, FieldMap.assignEntry c m m2 op q = .ok c' ∧ FieldMap.access c m2 q = .ok v ∧
      v.length = perIter f m.iter ∧ c' = { c with fields := c'.fields } ∧
      (∀ x, x ≠ m.name → c'.fields.find x = c.fields.find x) ∧
      c'.fields.find m.name = some (f.withVals vals) ∧ vals.length = f.vals.length ∧
      (∀ i j, i < nbIter c f m.iter → j < perIter f m.iter → vals[i * perIter f m.iter + j]? =
        (f.vals[i * perIter f m.iter + j]?).bind (fun a =>
          ((if m2.name = m.name ∧ q < i then List.zipWith op v v else v)[j]?).map (op a))) ∧
      (∀ p, f.vals.length - f.pad ≤ p → vals[p]? = f.vals[p]?) := by
  obtain ⟨h1, h2, h3⟩ := hm.facts hb hi hd
  obtain ⟨g1, g2, g3⟩ := hm2.facts hb hi hd
  have hkk : perIter f2 m2.iter = perIter f m.iter := by
    have e1 := h1.shape
    have e2 := g1.shape
    rw [hr, hc, e1] at e2
    exact_mod_cast e2.symm
  rw [hkk] at g1 g3
  generalize hk : perIter f m.iter = k at *
  have hus : FieldMap.Usable c [m, m2] (fun _ => k)
      (fun x => if x = m.name ∧ (m2.name = m.name → nbIter c f2 m2.iter ≤ nbIter c f m.iter) then nbIter c f m.iter
        else nbIter c f2 m2.iter) := by
    refine ⟨fun x hx => ?_, hb.size.wf.fields_sorted⟩
    simp only [List.mem_cons, List.not_mem_nil, or_false] at hx
    by_cases hnm : m2.name = m.name
    · have : f2 = f := by have := hm2.find; rw [hnm, hm.find] at this; cases this; rfl
      subst this
      rcases hx with rfl | rfl
      · refine ⟨f2, h1, ?_⟩
        split <;> omega
      · refine ⟨f2, g1, ?_⟩
        split <;> omega
    · rcases hx with rfl | rfl
      · refine ⟨f, h1, ?_⟩
        rw [if_pos ⟨rfl, fun h => absurd h hnm⟩]; omega
      · refine ⟨f2, g1, ?_⟩
        rw [if_neg (fun h => hnm h.1)]; omega
  obtain ⟨c', l1, l2, l3⟩ := FieldMap.assignLoop_ok (op := op) (q := q) (stop := nbIter c f m.iter) (k := fun _ => k)
    (m := m) (m2 := m2) rfl (by
      split
      · rename_i h; have := h.2 h.1; omega
      · exact hq) (by
      by_cases h : m2.name = m.name → nbIter c f2 m2.iter ≤ nbIter c f m.iter
      · rw [if_pos ⟨rfl, h⟩]
      · rw [if_neg (fun h' => h h'.2)]
        rw [Classical.not_imp] at h
        omega) (nbIter c f m.iter) 0 hus (by omega)
  have hv : FieldMap.access c m2 q = .ok (FieldMap.lookAt c (fun _ => k) q m2.name) ∧
      (FieldMap.lookAt c (fun _ => k) q m2.name).length = k := by
    refine hus.access (m := m2) (by simp) ?_
    split
    · rename_i h; have := h.2 h.1; omega
    · exact hq
  obtain ⟨vals, o1, o2, o3⟩ := l2.field m.name f hm.find
  refine ⟨c', _, vals, ?_, hv.1, hv.2, l2.rest, fun x hx => l2.other x (by simpa using hx), o1, o2, ?_, ?_⟩
  · rw [FieldMap.assignEntry, if_neg (by simp [hr, hc]), if_neg (by simp [h1.ready]), h2, Res.ok_bind, l1]
  · intro i j hin hj
    have e := l3 i m.name
    rw [if_pos ⟨rfl, Nat.zero_le _, hin⟩, FieldMap.lookAt, o1] at e
    simp only [chunk] at e
    have e' := congrArg (fun l => l[j]?) e
    simp only [List.getElem?_zipWith, FieldMap.lookAt, hm.find, chunk] at e'
    rw [List.getElem?_take_of_lt hj, List.getElem?_drop, List.getElem?_take_of_lt hj, List.getElem?_drop] at e'
    rw [e']
    simp only [FieldMap.lookAt, chunk, Nat.zero_le, true_and]
    generalize (f.vals[i * k + j]?) = a
    generalize (if m2.name = m.name ∧ q < i then _ else _ : List α)[j]? = b
    cases a <;> cases b <;> rfl
  · intro p hp
    refine o3 p ?_
    split
    · omega
    · rename_i hn
      have hnm : m2.name = m.name := Classical.byContradiction fun h => hn ⟨rfl, fun h' => absurd h' h⟩
      have : f2 = f := by have := hm2.find; rw [hnm, hm.find] at this; cases this; rfl
      subst this
      omega

/-- **C85** The part that holds: a value in another field, or an operation that leaves equal values alone (`=`).  All
entries are changed with the value at the call. -/
theorem C85_value_partial (hb : Built srt c) (hi : c.initialised = true) (hd : c.nbBuf = c.nbPixels) {m m2 : FieldMap}
    {f f2 : Field α U} (hm : MapOf c m f) (hm2 : MapOf c m2 f2) (hr : m2.rows = m.rows) (hc : m2.cols = m.cols)
    (op : α → α → α) (hop : m2.name ≠ m.name ∨ ∀ a, op a a = a) {q : Nat} (hq : q < nbIter c f2 m2.iter) :
    ∃ c' v vals, FieldMap.assignEntry c m m2 op q = .ok c' ∧ FieldMap.access c m2 q = .ok v ∧
      v.length = perIter f m.iter ∧ c' = { c with fields := c'.fields } ∧
      (∀ x, x ≠ m.name → c'.fields.find x = c.fields.find x) ∧
      c'.fields.find m.name = some (f.withVals vals) ∧ vals.length = f.vals.length ∧
      (∀ i j, i < nbIter c f m.iter → j < perIter f m.iter → vals[i * perIter f m.iter + j]? =
        (f.vals[i * perIter f m.iter + j]?).bind (fun a => (v[j]?).map (op a))) ∧
      (∀ p, f.vals.length - f.pad ≤ p → vals[p]? = f.vals[p]?) := by
  obtain ⟨c', v, vals, h1, h2, h3, h4, h5, h6, h7, h8, h9⟩ := C85_exact hb hi hd hm hm2 hr hc op hq
  refine ⟨c', v, vals, h1, h2, h3, h4, h5, h6, h7, fun i j hi' hj => ?_, h9⟩
  rw [h8 i j hi' hj]
  split
  · rename_i hs
    have hid := hop.resolve_left (fun h => h hs.1)
    have : List.zipWith op v v = v := by
      rw [List.zipWith_self]
      simp [hid]
    rw [this]
  · rfl

/-- **C85** An entry of another shape is rejected, even if it has the same number of coefficients, and so is a map that is
not initialised. -/
theorem C85_rejected (c : Coll α U) (m m2 : FieldMap) (op : α → α → α) (q : Nat)
    (h : m2.rows ≠ m.rows ∨ m2.cols ≠ m.cols ∨ m.ready = false) :
    FieldMap.assignEntry c m m2 op q = .throw .fieldMapError := by
  unfold FieldMap.assignEntry
  split
  · rfl
  · rename_i h1
    have h1 := not_not.1 h1
    rcases h with h | h | h
    · exact absurd h1.1 h
    · exact absurd h1.2 h
    · rw [if_pos (by simp [h])]

example (c : Coll Int String) : FieldMap.assignEntry c ⟨"strain", .subPt, 4, 2, 2, true⟩ ⟨"strain", .subPt, 4, 2, 3, true⟩ (· + ·) 0 =
    .throw .fieldMapError := C85_rejected _ _ _ _ _ (Or.inr (Or.inl (by decide)))

/-- **C85** `m -= m[q]`: the entry itself becomes zero, and the entries behind it keep their values. -/
theorem C85_subtract {c : Coll Int U} (hb : Built srt c) (hi : c.initialised = true) (hd : c.nbBuf = c.nbPixels)
    {m : FieldMap} {f : Field Int U} (hm : MapOf c m f) {q : Nat} (hq : q < nbIter c f m.iter) :
    ∃ c' vals, FieldMap.assignEntry c m m (· - ·) q = .ok c' ∧ c'.fields.find m.name = some (f.withVals vals) ∧
      (∀ j, j < perIter f m.iter → vals[q * perIter f m.iter + j]? = some 0) ∧
      (∀ i j, q < i → i < nbIter c f m.iter → j < perIter f m.iter →
        vals[i * perIter f m.iter + j]? = f.vals[i * perIter f m.iter + j]?) := by
  obtain ⟨c', v, vals, h1, h2, h3, h4, h5, h6, h7, h8, h9⟩ := C85_exact hb hi hd hm hm rfl rfl (· - ·) hq
  obtain ⟨o1, o2, o3⟩ := hm.facts hb hi hd
  have hle := Nat.mul_le_mul_right (perIter f m.iter) (show q + 1 ≤ nbIter c f m.iter from hq)
  have ev : v = chunk f.vals (perIter f m.iter) q := by
    have := FieldMap.access_ok o1 (i := q) (by omega)
    rw [h2] at this
    cases this; rfl
  refine ⟨c', vals, h1, h6, fun j hj => ?_, fun i j hqi hi' hj => ?_⟩
  · rw [h8 q j hq hj, if_neg (by omega), ev, chunk, List.getElem?_take_of_lt hj, List.getElem?_drop]
    have e : (q + 1) * perIter f m.iter = q * perIter f m.iter + perIter f m.iter := by ring
    rw [List.getElem?_eq_getElem (by omega)]
    simp
  · rw [h8 i j hi' hj, if_pos ⟨rfl, hqi⟩, List.zipWith_self, List.getElem?_map,
      List.getElem?_eq_getElem (by omega : j < v.length)]
    cases f.vals[i * perIter f m.iter + j]? <;> simp
end

/-- Three pixels with the values 1, 2, 3. -/
def exThreeProgram : List (Op Int String) :=
  [.addPixel 3, .addPixel 8, .addPixel 9, .register "a" .real (.num 1) "pixel" "" false, .initLocal,
   .write "a" 0 1, .write "a" 1 2, .write "a" 2 3]

def exThreeStart : Coll Int String := Coll.empty false 2 .colMajor [("pixel", 1)]

def exThree : Coll Int String := (exThreeStart.run stableSort exThreeProgram).getD exThreeStart

theorem exThree_built : Built stableSort exThree := by
  refine ⟨false, 2, .colMajor, [], exThreeStart, by simp [SMap.Sorted], fun t n h => (by cases h), by decide +kernel,
    reachable_of_run (ops := exThreeProgram) ?_ Reachable.start ?_⟩
  · intro d op hop
    simp only [exThreeProgram, List.mem_cons, List.mem_nil_iff, or_false] at hop
    rcases hop with rfl | rfl | rfl | rfl | rfl | rfl | rfl | rfl <;> simp [Adm, Comps.toNb]
  · have : (exThreeStart.run stableSort exThreeProgram).isSome = true := by decide +kernel
    unfold exThree
    rw [Option.isSome_iff_exists] at this
    obtain ⟨c, hc⟩ := this
    rw [hc]; rfl

def exThreeMap : FieldMap := ⟨"a", .pixel, 1, 1, 1, true⟩

theorem exThree_of : ∃ f, MapOf exThree exThreeMap f ∧ f.nbSub = 1 := by
  have h : (exThree.fields.find "a").map (fun f => (f.cur, f.nbSub, f.vals)) = some (3, 1, [1, 2, 3]) := by
    decide +kernel
  rw [Option.map_eq_some_iff] at h
  obtain ⟨f, h1, h2⟩ := h
  simp only [Prod.mk.injEq] at h2
  obtain ⟨e1, e2, e3⟩ := h2
  have e4 : exThree.nbBuf = 3 := by decide +kernel
  exact ⟨f, ⟨h1, Or.inl (by decide +kernel), by rw [e1, e2, e4]; rfl, by rw [e3]; decide⟩, e2⟩

/-- The values after `m -= m[0]`. -/
example : (match FieldMap.assignEntry exThree exThreeMap exThreeMap (· - ·) 0 with
    | .ok c => (c.fields.find "a").map (·.vals)
    | _ => none) = some [0, 2, 3] := by decide +kernel

/-- **C85** is false: `m -= m[0]` does not subtract the first entry from the others. -/
theorem C85_false : ¬ C85_statement := by
  intro h
  obtain ⟨f, hf, e⟩ := exThree_of
  have h1 := h stableSort exThree
    (match FieldMap.assignEntry exThree exThreeMap exThreeMap (· - ·) 0 with | .ok c => c | _ => exThree)
    exThreeMap exThreeMap f f (· - ·) 0 [1] exThree_built (by decide +kernel) (by decide +kernel) hf hf
    (by decide +kernel) (by decide +kernel) (by
      have : exThree.nbPixels = 3 := by decide +kernel
      simp [nbIter, exThreeMap, this])
  revert h1
  decide +kernel

/-- The hypotheses are met by the examples of C84, within one field and with two. -/
example : (∃ f f2, MapOf exAfter exStrain f ∧ MapOf exAfter exStrain f2 ∧ 5 < nbIter exAfter f2 exStrain.iter) ∧
    (∃ f f2, MapOf exAfter exStress f ∧ MapOf exAfter { exStrain with rows := 4, cols := 1 } f2 ∧
      5 < nbIter exAfter f2 exStrain.iter) := by
  have hs := exAfter_pixels.1
  obtain ⟨f, h, e, -⟩ := exStrain_of
  obtain ⟨f', h', e', -⟩ := exStress_of
  refine ⟨⟨f, f, h, h, by simp [nbIter, exStrain, e, hs]⟩, f', f, h', ⟨h.find, ?_, h.cur, h.small⟩,
    by simp [nbIter, exStrain, e, hs]⟩
  exact Or.inl (by decide +kernel)

end Verif.Props
