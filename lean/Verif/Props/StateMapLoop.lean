import Verif.Lemmas.StateMapLoop
import Verif.Props.Mapped
/-
Property C108: loops over maps of state fields, and time stepping.
-/
set_option linter.unusedSectionVars false

namespace Verif.Props
open Verif Verif.Ccoord Verif.Layout Verif.Collection Verif.Collection.Coll

variable {α U : Type} [Inhabited α] [DecidableEq U]

/-- A state field as registered and cycled any number of times, in an initialised collection without gaps
between pixels: `n` iterates of `K` scalars. -/
structure Steppable (c : Coll α U) (pre : String) (N : Nat) (it : IterUnit) (K n : Nat) : Prop where
  state : ∃ s t, c.states.find pre = some s ∧ s.nbMemory = N ∧
    s.names = (List.range (N + 1)).map (subFieldName pre) ∧ s.indices = cycled N t
  dense : c.nbBuf = c.nbPixels
  fields : ∀ j ≤ N, ∃ f, c.fields.find (subFieldName pre j) = some f ∧ perIter f it = K ∧ nbIter c f it = n ∧
    f.cur = f.nbSub * c.nbBuf ∧ f.vals.length < 18446744073709551616

/-- A map made on such a state field can be used; its entries are pieces of the sub-fields. -/
theorem running_exists {srt : SortFn} {c : Coll α U} (hb : Built srt c) (hi : c.initialised = true) {pre : String}
    {N : Nat} (hN : ∃ j, N + 1 = 2 ^ j) {it : IterUnit} {K n : Nat} (hs : Steppable c pre N it K n)
    {rows : Int} (hr : 1 ≤ rows) {sm : StateFieldMap} (hm : StateFieldMap.mk' c pre (some rows) it = .ok sm) :
    ∃ b X, Running c sm N K n b X ∧ ∀ k ≤ N, ∀ i < n, ∃ j ≤ N, ∃ f, c.fields.find (subFieldName pre j) = some f ∧
      n * K ≤ f.vals.length ∧ X k i = chunk f.vals K i := by
  obtain ⟨s, t, hs1, hs2, hs3, hs4⟩ := hs.state
  obtain ⟨j0, hj0⟩ := hN
  obtain ⟨b, hbN, hbs⟩ := cycled_slots hj0 t
  unfold StateFieldMap.mk' at hm
  simp only [hs1] at hm
  obtain ⟨f0, _, hm⟩ := Res.bind_eq_ok.1 hm
  obtain ⟨maps, hmaps, hm⟩ := Res.bind_eq_ok.1 hm
  simp only [Res.pure_eq, Res.ok.injEq] at hm
  subst hm
  have hall : ∀ j, ∃ (m : FieldMap) (f : Field α U), j ≤ N → maps[j]? = some m ∧ FieldMap.On c m f K ∧
      n * K ≤ f.vals.length ∧ m.name = subFieldName pre j ∧ FieldMap.size c m = .ok n := by
    intro j
    by_cases hj : j ≤ N
    · obtain ⟨f, g1, g2, g3, g4, g5⟩ := hs.fields j hj
      obtain ⟨m, hm1, hm2⟩ := makeMaps_get hmaps j (subFieldName pre j) (by
        rw [hs3, List.getElem?_map, List.getElem?_range (by omega)]; rfl)
      obtain ⟨o1, o2, o3⟩ := mkRows_on hb.size hi g1 hr hm2
      obtain ⟨z1, z2⟩ := size_of_map hb.size hi g1 hs.dense g4 g5 o3 o2
      rw [g2, g3] at z2
      refine ⟨m, f, fun _ => ⟨hm1, g2 ▸ o1, by omega, o3, g3 ▸ z1⟩⟩
    · exact ⟨⟨"", it, 0, 0, 0, false⟩, f0, fun h => absurd h hj⟩
  choose m f hmf using hall
  refine ⟨b, fun k i => chunk (f (slotOf N b k)).vals K i, ⟨hbN, ⟨s, hs1, hs2, hs4.trans hbs⟩, ⟨m, f, ?_, ?_, fun _ _ _ _ => rfl⟩, ?_⟩, ?_⟩
  · intro j hj
    obtain ⟨q1, q2, q3, -, -⟩ := hmf j hj
    exact ⟨q1, q2, q3⟩
  · intro j hj j' hj' he
    rw [(hmf j hj).2.2.2.1, (hmf j' hj').2.2.2.1] at he
    exact subFieldName_inj he
  · obtain ⟨q1, -, -, -, q5⟩ := hmf 0 (Nat.zero_le N)
    unfold StateFieldMap.endIndex
    cases maps with
    | nil => simp at q1
    | cons m0 ms =>
      simp only [List.getElem?_cons_zero, Option.some.injEq] at q1
      subst q1
      exact q5
  · intro k hk i _
    have hj := Nat.lt_succ_iff.1 (slotOf_lt hbN hk)
    obtain ⟨-, q2, q3, q4, -⟩ := hmf _ hj
    exact ⟨slotOf N b k, hj, f (slotOf N b k), q4 ▸ q2.find, q3, rfl⟩

/-- The entries of the map are what `get` gives. -/
theorem running_of_made {srt : SortFn} {c : Coll α U} (hb : Built srt c) (hi : c.initialised = true) {pre : String}
    {N : Nat} (hN : ∃ j, N + 1 = 2 ^ j) {it : IterUnit} {K n : Nat} (hs : Steppable c pre N it K n)
    {rows : Int} (hr : 1 ≤ rows) {sm : StateFieldMap} (hm : StateFieldMap.mk' c pre (some rows) it = .ok sm)
    {X : Nat → Nat → List α}
    (hX : ∀ i < n, StateFieldMap.get c sm i = .ok ((List.range (N + 1)).map fun k => X k i)) :
    ∃ b, Running c sm N K n b X := by
  obtain ⟨b, Y, h, -⟩ := running_exists hb hi hN hs hr hm
  refine ⟨b, h.congr ?_⟩
  intro k hk i hin
  have h1 := Res.ok.inj ((h.get hin).symm.trans (hX i hin))
  have h2 : ((List.range (N + 1)).map fun k => Y k i)[k]? = ((List.range (N + 1)).map fun k => X k i)[k]? := by rw [h1]
  simpa [List.getElem?_range (show k < N + 1 by omega)] using h2

/-- **C108** (loop) A loop over a map of a state field visits all entries once; with the body
`w.current() = F(i, w)` the current value of entry `i` is afterwards what `F` gives for the values before the loop,
and the old values are the same as before.  `X k i` is the value of entry `i` that was current `k` steps ago. -/
theorem C108_loop_partial {srt : SortFn} {c : Coll α U} (hb : Built srt c) (hi : c.initialised = true) {pre : String}
    {N : Nat} (hN : ∃ j, N + 1 = 2 ^ j) {it : IterUnit} {K n : Nat} (hs : Steppable c pre N it K n)
    {rows : Int} (hr : 1 ≤ rows) {sm : StateFieldMap} (hm : StateFieldMap.mk' c pre (some rows) it = .ok sm)
    {X : Nat → Nat → List α}
    (hX : ∀ i < n, StateFieldMap.get c sm i = .ok ((List.range (N + 1)).map fun k => X k i))
    {F : Nat → List (List α) → List α} (hF : ∀ i w, (F i w).length = K) :
    ∃ c', StateFieldMap.update c sm F = .ok c' ∧
      ∀ i < n, StateFieldMap.get c' sm i = .ok (F i ((List.range (N + 1)).map fun k => X k i) ::
        (List.range N).map fun k => X (k + 1) i) := by
  obtain ⟨b, h⟩ := running_of_made hb hi hN hs hr hm hX
  obtain ⟨c', h1, h2⟩ := h.update (F := F) (fun j _ => hF _ _)
  refine ⟨c', h1, ?_⟩
  intro i hin
  rw [h2.get hin, List.range_succ_eq_map]
  simp [Function.comp_def]

/-- **C108** (time stepping) A program that repeats `cycle(); for (auto && w : map) w.current() = G(i, w.old(1), …,
w.old(N));` computes the recurrence `G` with `N` old values, for any number `T` of steps and any `G`: afterwards
`current()` and `old(k)` of every entry are the elements `T + N` and `T + N - k` of the sequence.  Missing: memories
`N` with `N + 1` not a power of two, see `C108_false`. -/
theorem C108_recurrence_partial {srt : SortFn} {c : Coll α U} (hb : Built srt c) (hi : c.initialised = true)
    {pre : String} {N : Nat} (hN : ∃ j, N + 1 = 2 ^ j) {it : IterUnit} {K n : Nat} (hs : Steppable c pre N it K n)
    {rows : Int} (hr : 1 ≤ rows) {sm : StateFieldMap} (hm : StateFieldMap.mk' c pre (some rows) it = .ok sm)
    {G : Nat → List (List α) → List α} {x : Nat → Nat → List α} (hrec : Recurrence G N x)
    (hlen : ∀ t, ∀ i < n, (x t i).length = K)
    (hstart : ∀ i < n, StateFieldMap.get c sm i = .ok ((List.range (N + 1)).map fun k => x (N - k) i)) (T : Nat) :
    ∃ c', StateFieldMap.timeSteps sm G T c = .ok c' ∧
      ∀ i < n, StateFieldMap.get c' sm i = .ok ((List.range (N + 1)).map fun k => x (T + N - k) i) := by
  obtain ⟨b, h⟩ := running_of_made hb hi hN hs hr hm hstart
  obtain ⟨c', b', h1, h2⟩ := Running.timeSteps (t := 0) hrec hlen T (by simpa using h)
  refine ⟨c', h1, fun i hin => ?_⟩
  simpa using h2.get hin

/-- **C108** `size()` and `end()` agree, and are the number of pixels or of sub-points. -/
theorem C108_size {srt : SortFn} {c : Coll α U} (hb : Built srt c) (hi : c.initialised = true)
    {pre : String} {N : Nat} {it : IterUnit} {K n : Nat} (hs : Steppable c pre N it K n)
    {rows : Int} (hr : 1 ≤ rows) {sm : StateFieldMap} (hm : StateFieldMap.mk' c pre (some rows) it = .ok sm) :
    StateFieldMap.endIndex c sm = .ok n ∧ StateFieldMap.size c sm = .ok n := by
  obtain ⟨s, t, hs1, hs2, hs3, hs4⟩ := hs.state
  unfold StateFieldMap.mk' at hm
  simp only [hs1] at hm
  obtain ⟨f0, hf0, hm⟩ := Res.bind_eq_ok.1 hm
  obtain ⟨maps, hmaps, hm⟩ := Res.bind_eq_ok.1 hm
  simp only [Res.pure_eq, Res.ok.injEq] at hm
  subst hm
  constructor
  · obtain ⟨f, g1, g2, g3, g4, g5⟩ := hs.fields 0 (Nat.zero_le N)
    obtain ⟨m, hm1, hm2⟩ := makeMaps_get hmaps 0 (subFieldName pre 0) (by
      rw [hs3, List.getElem?_map, List.getElem?_range (by omega)]; rfl)
    obtain ⟨o1, o2, o3⟩ := mkRows_on hb.size hi g1 hr hm2
    obtain ⟨z1, -⟩ := size_of_map hb.size hi g1 hs.dense g4 g5 o3 o2
    unfold StateFieldMap.endIndex
    cases maps with
    | nil => simp at hm1
    | cons m0 ms =>
      simp only [List.getElem?_cons_zero, Option.some.injEq] at hm1
      subst hm1
      exact g3 ▸ z1
  · have hlen : (cycled N t).length = N + 1 := cycled_length N t
    obtain ⟨j, hj⟩ : ∃ j, (cycled N t)[0]? = some j := ⟨_, List.getElem?_eq_getElem (by omega)⟩
    have hjN : j ≤ N := Nat.lt_succ_iff.1 (cycled_lt j (List.mem_of_getElem? hj))
    obtain ⟨f, g1, g2, g3, g4, g5⟩ := hs.fields j hjN
    have hcur : c.stateCurrent pre = .ok f := by
      unfold stateCurrent Coll.currentName StateField.slotName
      simp only [hs1, hs4, hj, hs3, List.getElem?_map, List.getElem?_range (show j < N + 1 by omega),
        Option.map_some, g1]
    unfold StateFieldMap.size
    simp only [hcur, Res.ok_bind, Res.pure_eq, Res.ok.injEq]
    obtain ⟨s1, s2, s3⟩ := hb.size.size hi _ f g1
    have hcomp := hb.size.comp _ f g1
    have hpos : 1 ≤ f.nbSub := (hb.size.sub_pos g1).resolve_left s1
    have hbuf := hb.size.buf hi
    rw [hs.dense] at hbuf s2
    have hp0 : 0 ≤ f.nbSub * c.nbPixels := by positivity
    have hle1 : c.nbPixels ≤ f.nbSub * c.nbPixels := by nlinarith
    have hle2 : f.nbSub * c.nbPixels ≤ f.nbComp * f.nbSub * c.nbPixels := by nlinarith
    have hne : f.nbEntries c.nbPixels = f.nbSub * c.nbPixels := by
      simp [Field.nbEntries, Field.hasSub, s1]
    rw [hne, ← g3]
    cases it with
    | pixel => rw [if_neg (by simp), FieldMap.toSizeT_of_nonneg hbuf (by omega)]; rfl
    | subPt => rw [if_pos rfl, FieldMap.toSizeT_of_nonneg hp0 (by omega)]; rfl

/-- Scalars per entry, and number of entries, of a map over a field with `nbComp` components and `q` sub-points. -/
def perEntry (nbComp q : Int) : IterUnit → Nat
  | .pixel => (nbComp * q).toNat
  | .subPt => nbComp.toNat

def nbEntry (c : Coll α U) (q : Int) : IterUnit → Nat
  | .pixel => c.nbPixels.toNat
  | .subPt => (q * c.nbPixels).toNat

/-- A state field registered in an initialised collection without gaps between pixels; all its fields hold zeros. -/
theorem steppable_registered {srt : SortFn} {c0 c : Coll α U} (hb : Built srt c0) (hi : c0.initialised = true)
    (hdense : c0.nbBuf = c0.nbPixels) {pre : String} {ty : ElemType} {N : Nat}
    {nbComp q : Int} (hc : 1 ≤ nbComp) {tag : String} {unit : U} (hq : c0.subPts.find tag = some q)
    (hreg : c0.registerState pre ty N nbComp tag unit false = (.ok (), c))
    (hsize : q * c0.nbPixels * nbComp < 18446744073709551616) (it : IterUnit) :
    Built srt c ∧ c.initialised = true ∧ Steppable c pre N it (perEntry nbComp q it) (nbEntry c0 q it) ∧
      ∀ j ≤ N, ∃ f, c.fields.find (subFieldName pre j) = some f ∧ f.nbComp = nbComp ∧ ∀ v ∈ f.vals, v = default := by
  have hstep : (c0.step srt (.registerState pre ty N nbComp tag unit false)) = (.ok (), c) := hreg
  have hbc : Built srt c := by
    obtain ⟨g, dim, o, sub, d, h1, h2, h3, h4⟩ := hb
    have := Reachable.call (.registerState pre ty N nbComp tag unit false) h4 hc (by rw [hstep]; simp)
    rw [hstep] at this
    exact ⟨g, dim, o, sub, d, h1, h2, h3, this⟩
  have hbase := (c0.registerState_frame pre ty N nbComp tag unit false).1
  rw [hreg] at hbase
  simp only [base, Prod.mk.injEq] at hbase
  obtain ⟨b1, b2, b3, b4, b5, b6, b7, b8, b9, b10⟩ := hbase
  have hf := registerState_zero hi hreg
  rw [hq, Option.getD_some] at hf
  obtain ⟨hN1, s, hs, hmem, hnames, hidx, -, -⟩ := registerState_new hreg
  have hst : Steppable c pre N it (perEntry nbComp q it) (nbEntry c0 q it) := by
    refine ⟨⟨s, 0, hs, hmem, hnames, ?_⟩, by rw [b4, b5]; exact hdense, ?_⟩
    · rw [hidx]
      unfold cycled
      conv_lhs => rw [← List.map_id (initialIndices N)]
      apply List.map_congr_left
      intro v hv
      simp only [id_eq, Nat.add_zero]
      exact (Nat.mod_eq_of_lt (initialIndices_lt v hv)).symm
    · intro j hj
      obtain ⟨f, g1, g2, g3, g4, g5, -⟩ := hf j hj
      refine ⟨f, g1, ?_, ?_, by rw [g4, b5], ?_⟩
      · cases it <;> simp [perIter, perEntry, g2, g3]
      · cases it <;> simp [nbIter, nbEntry, g3, b4]
      · rw [g3, g2, hdense] at g5
        omega
  refine ⟨hbc, b7.trans hi, hst, fun j hj => ?_⟩
  obtain ⟨f, g1, g2, g3, g4, g5, g6⟩ := hf j hj
  exact ⟨f, g1, g2, g6⟩

/-- **C108** (from the registration on) A state field registered in an initialised collection without gaps between
pixels holds zeros; after `T` steps as in `C108_recurrence_partial` it holds the elements of the sequence that begins
with zeros.  Whether the entries are pixels or sub-points, and which collection it is, does not matter.  Missing:
memories `N` with `N + 1` not a power of two, see `C108_false`. -/
theorem C108_registered_partial {srt : SortFn} {c0 c : Coll α U} (hb : Built srt c0) (hi : c0.initialised = true)
    (hdense : c0.nbBuf = c0.nbPixels) {pre : String} {ty : ElemType} {N : Nat} (hN : ∃ j, N + 1 = 2 ^ j)
    {nbComp q : Int} (hc : 1 ≤ nbComp) {tag : String} {unit : U} (hq : c0.subPts.find tag = some q)
    (hreg : c0.registerState pre ty N nbComp tag unit false = (.ok (), c))
    (hsize : q * c0.nbPixels * nbComp < 18446744073709551616) {it : IterUnit} {rows : Int} (hr : 1 ≤ rows)
    {sm : StateFieldMap} (hm : StateFieldMap.mk' c pre (some rows) it = .ok sm)
    {G : Nat → List (List α) → List α} {x : Nat → Nat → List α} (hrec : Recurrence G N x)
    (hlen : ∀ t, ∀ i < nbEntry c0 q it, (x t i).length = perEntry nbComp q it)
    (hzero : ∀ t ≤ N, ∀ i < nbEntry c0 q it, ∀ v ∈ x t i, v = default) (T : Nat) :
    ∃ c', StateFieldMap.timeSteps sm G T c = .ok c' ∧ ∀ i < nbEntry c0 q it,
      StateFieldMap.get c' sm i = .ok ((List.range (N + 1)).map fun k => x (T + N - k) i) := by
  obtain ⟨hbc, hic, hst, hf⟩ := steppable_registered hb hi hdense hc hq hreg hsize it
  obtain ⟨b, Y, h, hY⟩ := running_exists hbc hic hN hst hr hm
  have hYx : ∀ k ≤ N, ∀ i < nbEntry c0 q it, Y k i = x (0 + N - k) i := by
    intro k hk i hin
    obtain ⟨j, hj, f, f1, f2, f3⟩ := hY k hk i hin
    obtain ⟨f', g1, -, g6⟩ := hf j hj
    rw [f1] at g1
    cases g1
    rw [f3]
    have e1 : chunk f.vals (perEntry nbComp q it) i = List.replicate (perEntry nbComp q it) default := by
      rw [List.eq_replicate_iff]
      refine ⟨chunk_length (le_trans (Nat.mul_le_mul_right _ hin) f2), fun v hv => g6 v ?_⟩
      exact List.mem_of_mem_drop (List.mem_of_mem_take hv)
    rw [e1]
    symm
    rw [List.eq_replicate_iff]
    exact ⟨hlen _ i hin, hzero _ (by omega) i hin⟩
  obtain ⟨c', b', h1, h2⟩ := Running.timeSteps (t := 0) hrec hlen T (h.congr hYx)
  refine ⟨c', h1, fun i hin => ?_⟩
  simpa using h2.get hin

/-! ### Examples -/

/-- A local collection with two pixels and a state field with one component and `N` old values. -/
def exRecStart : Coll Int String := Coll.empty false 2 .colMajor [("pixel", 1)]

def exRecProgram (N : Nat) : List (Op Int String) :=
  [.addPixel 3, .addPixel 8, .registerState "s" .real N 1 "pixel" "" false, .initLocal]

def exRec (N : Nat) : Coll Int String := (exRecStart.run stableSort (exRecProgram N)).getD exRecStart

theorem exRec_built {N : Nat} (h : (exRecStart.run stableSort (exRecProgram N)).isSome = true) :
    Built stableSort (exRec N) := by
  refine ⟨false, 2, .colMajor, [], exRecStart, by simp [SMap.Sorted], fun t n h => (by cases h), by decide +kernel,
    reachable_of_run (ops := exRecProgram N) ?_ Reachable.start ?_⟩
  · intro d op hop
    simp only [exRecProgram, List.mem_cons, List.mem_nil_iff, or_false] at hop
    rcases hop with rfl | rfl | rfl | rfl <;> simp [Adm]
  · unfold exRec
    rw [Option.isSome_iff_exists] at h
    obtain ⟨c, hc⟩ := h
    rw [hc]; rfl

/-- The map over the pixels. -/
def exRecMap (N : Nat) : StateFieldMap :=
  match StateFieldMap.mk' (exRec N) "s" (some 1) .pixel with
  | .ok sm => sm
  | _ => ⟨"", .pixel, 0, []⟩

theorem exRec_three : Steppable (exRec 3) "s" 3 .pixel 1 2 := by
  refine ⟨⟨((exRec 3).states.find "s").get (by decide +kernel), 0, by decide +kernel, by decide +kernel,
    by decide +kernel, by decide +kernel⟩, by decide +kernel, ?_⟩
  intro j hj
  have : j = 0 ∨ j = 1 ∨ j = 2 ∨ j = 3 := by omega
  rcases this with rfl | rfl | rfl | rfl
  · exact ⟨((exRec 3).fields.find (subFieldName "s" 0)).get (by decide +kernel), by decide +kernel,
      by decide +kernel, by decide +kernel, by decide +kernel, by decide +kernel⟩
  · exact ⟨((exRec 3).fields.find (subFieldName "s" 1)).get (by decide +kernel), by decide +kernel,
      by decide +kernel, by decide +kernel, by decide +kernel, by decide +kernel⟩
  · exact ⟨((exRec 3).fields.find (subFieldName "s" 2)).get (by decide +kernel), by decide +kernel,
      by decide +kernel, by decide +kernel, by decide +kernel, by decide +kernel⟩
  · exact ⟨((exRec 3).fields.find (subFieldName "s" 3)).get (by decide +kernel), by decide +kernel,
      by decide +kernel, by decide +kernel, by decide +kernel, by decide +kernel⟩

theorem exRec_two : Steppable (exRec 2) "s" 2 .pixel 1 2 := by
  refine ⟨⟨((exRec 2).states.find "s").get (by decide +kernel), 0, by decide +kernel, by decide +kernel,
    by decide +kernel, by decide +kernel⟩, by decide +kernel, ?_⟩
  intro j hj
  have : j = 0 ∨ j = 1 ∨ j = 2 := by omega
  rcases this with rfl | rfl | rfl
  · exact ⟨((exRec 2).fields.find (subFieldName "s" 0)).get (by decide +kernel), by decide +kernel,
      by decide +kernel, by decide +kernel, by decide +kernel, by decide +kernel⟩
  · exact ⟨((exRec 2).fields.find (subFieldName "s" 1)).get (by decide +kernel), by decide +kernel,
      by decide +kernel, by decide +kernel, by decide +kernel, by decide +kernel⟩
  · exact ⟨((exRec 2).fields.find (subFieldName "s" 2)).get (by decide +kernel), by decide +kernel,
      by decide +kernel, by decide +kernel, by decide +kernel, by decide +kernel⟩

/-- The new value is the sum of the last two plus one. -/
def exRecBody (_ : Nat) (w : List (List Int)) : List Int :=
  [(w.getD 0 []).headD 0 + (w.getD 1 []).headD 0 + 1]

/-- The sequence with four, respectively three, elements at its start. -/
def exRecSeq4 : Nat → Int
  | 0 => 0 | 1 => 0 | 2 => 0 | 3 => 0
  | t + 4 => exRecSeq4 (t + 3) + exRecSeq4 (t + 2) + 1

def exRecSeq3 : Nat → Int
  | 0 => 0 | 1 => 0 | 2 => 0
  | t + 3 => exRecSeq3 (t + 2) + exRecSeq3 (t + 1) + 1

/-- The hypotheses are met, with a memory of three. -/
example : Built stableSort (exRec 3) ∧ (exRec 3).initialised = true ∧ (∃ j, 3 + 1 = 2 ^ j) ∧
    Steppable (exRec 3) "s" 3 .pixel 1 2 ∧ StateFieldMap.mk' (exRec 3) "s" (some 1) .pixel = .ok (exRecMap 3) ∧
    Recurrence exRecBody 3 (fun t _ => [exRecSeq4 t]) ∧
    ∀ i < 2, StateFieldMap.get (exRec 3) (exRecMap 3) i = .ok ((List.range 4).map fun k => [exRecSeq4 (3 - k)]) := by
  refine ⟨exRec_built (by decide +kernel), by decide +kernel, ⟨2, rfl⟩, exRec_three, by decide +kernel, ?_, ?_⟩
  · intro t i
    rfl
  · intro i hi
    have : i = 0 ∨ i = 1 := by omega
    rcases this with rfl | rfl <;> decide +kernel

/-- After five steps: 12, 7, 4, 2. -/
example : (do let c ← StateFieldMap.timeSteps (exRecMap 3) exRecBody 5 (exRec 3)
              StateFieldMap.get c (exRecMap 3) 1) = .ok [[12], [7], [4], [2]] := by decide +kernel

/-- The same with a collection that is initialised first; the tag "quad" has two sub-points. -/
def exRecInit : Coll Int String :=
  (exRecStart.run stableSort [.setNbSubPts "quad" 2, .addPixel 3, .addPixel 8, .initLocal]).getD exRecStart

def exRecReg : Coll Int String := (exRecInit.registerState "s" .real 3 1 "quad" "" false).2

example : Built stableSort exRecInit ∧ exRecInit.initialised = true ∧ exRecInit.nbBuf = exRecInit.nbPixels ∧
    exRecInit.subPts.find "quad" = some 2 ∧
    exRecInit.registerState "s" .real 3 1 "quad" "" false = (.ok (), exRecReg) ∧
    (∃ sm, StateFieldMap.mk' exRecReg "s" (some 1) .subPt = .ok sm ∧
      (do let c ← StateFieldMap.timeSteps sm exRecBody 5 exRecReg
          StateFieldMap.get c sm 3) = .ok [[12], [7], [4], [2]]) ∧
    nbEntry exRecInit 2 .subPt = 4 ∧ perEntry 1 2 .subPt = 1 ∧
    Recurrence exRecBody 3 (fun t _ => [exRecSeq4 t]) ∧ (∀ t ≤ 3, ∀ v ∈ [exRecSeq4 t], v = default) := by
  refine ⟨⟨false, 2, .colMajor, [], exRecStart, by simp [SMap.Sorted], fun t n h => (by cases h), by decide +kernel,
    reachable_of_run (ops := [.setNbSubPts "quad" 2, .addPixel 3, .addPixel 8, .initLocal]) ?_ Reachable.start ?_⟩,
    by decide +kernel, by decide +kernel, by decide +kernel, by decide +kernel,
    ⟨(match StateFieldMap.mk' exRecReg "s" (some 1) .subPt with
      | .ok sm => sm
      | _ => ⟨"", .pixel, 0, []⟩), by decide +kernel, by decide +kernel⟩,
    by decide +kernel, by decide +kernel, fun t i => rfl, ?_⟩
  · intro d op hop
    simp only [List.mem_cons, List.mem_nil_iff, or_false] at hop
    rcases hop with rfl | rfl | rfl | rfl <;> simp [Adm]
  · unfold exRecInit
    rfl
  · intro t ht
    have : t = 0 ∨ t = 1 ∨ t = 2 ∨ t = 3 := by omega
    rcases this with rfl | rfl | rfl | rfl <;> simp [exRecSeq4]

/-! ### The full statement is false -/

/-- The claim for state fields with `N` old values. -/
def Steps (N : Nat) : Prop :=
  ∀ (c : Coll Int String), Built stableSort c → c.initialised = true → ∀ (pre : String) (it : IterUnit) (K n : Nat),
    Steppable c pre N it K n → ∀ (rows : Int), 1 ≤ rows → ∀ (sm : StateFieldMap),
    StateFieldMap.mk' c pre (some rows) it = .ok sm → ∀ (G : Nat → List (List Int) → List Int) (x : Nat → Nat → List Int),
    Recurrence G N x → (∀ t, ∀ i < n, (x t i).length = K) →
    (∀ i < n, StateFieldMap.get c sm i = .ok ((List.range (N + 1)).map fun k => x (N - k) i)) → ∀ T : Nat,
    ∃ c', StateFieldMap.timeSteps sm G T c = .ok c' ∧
      ∀ i < n, StateFieldMap.get c' sm i = .ok ((List.range (N + 1)).map fun k => x (T + N - k) i)

/-- The full statement: for all memories. -/
def C108_statement : Prop := ∀ N : Nat, 1 ≤ N → Steps N

/-- **C108** does not hold: with two old values, computing the sum of the last two plus one does not give the
sequence 1, 2, 4, 7, …, since the current value and one of the old values share a field (`C21_alias`). -/
theorem C108_false : ¬ C108_statement := by
  intro h
  obtain ⟨c', h1, h2⟩ := h 2 (by decide) (exRec 2) (exRec_built (by decide +kernel)) (by decide +kernel) "s" .pixel 1 2
    exRec_two 1 (by decide) (exRecMap 2) (by decide +kernel) exRecBody (fun t _ => [exRecSeq3 t]) (fun t i => rfl)
    (fun t i _ => rfl)
    (by intro i hi
        have : i = 0 ∨ i = 1 := by omega
        rcases this with rfl | rfl <;> decide +kernel) 3
  have h3 : (do let c ← StateFieldMap.timeSteps (exRecMap 2) exRecBody 3 (exRec 2)
                StateFieldMap.get c (exRecMap 2) 0) = .ok [[exRecSeq3 5], [exRecSeq3 4], [exRecSeq3 3]] := by
    rw [h1, Res.ok_bind, h2 0 (by decide)]
    rfl
  revert h3
  decide +kernel

/-! ### Which memories work -/

theorem mapM_elem {β γ : Type} {F : β → Res γ} {l : List β} {w : List γ} (h : l.mapM F = .ok w) :
    ∀ (k : Nat) (x : β), l[k]? = some x → ∃ y, F x = .ok y ∧ w[k]? = some y := by
  have hloop : ∀ (l : List β) (acc w : List γ), List.mapM.loop F l acc = .ok w → ∃ ys, w = acc.reverse ++ ys ∧
      ∀ (k : Nat) (x : β), l[k]? = some x → ∃ y, F x = .ok y ∧ ys[k]? = some y := by
    intro l
    induction l with
    | nil =>
      intro acc w h
      simp only [List.mapM.loop, Res.pure_eq, Res.ok.injEq] at h
      exact ⟨[], by simp [h], fun k x hk => by simp at hk⟩
    | cons a l ih =>
      intro acc w h
      simp only [List.mapM.loop] at h
      obtain ⟨y, hy, h⟩ := Res.bind_eq_ok.1 h
      obtain ⟨ys, e, hys⟩ := ih _ _ h
      refine ⟨y :: ys, by simp [e], ?_⟩
      intro k x hk
      cases k with
      | zero => simp only [List.getElem?_cons_zero, Option.some.injEq] at hk; subst hk; exact ⟨y, hy, rfl⟩
      | succ k => exact hys k x (by simpa using hk)
  obtain ⟨ys, e, hys⟩ := hloop l [] w h
  simp only [List.reverse_nil, List.nil_append] at e
  subst e
  exact hys

/-- Two steps of the history kept in the same slot are read alike. -/
theorem get_alias {c : Coll α U} {sm : StateFieldMap} {s : StateField U} {N k i : Nat}
    (hs : c.states.find sm.pre = some s) (hN : s.nbMemory = N) (hk : k ≤ N) (he : s.indices[k]? = s.indices[0]?)
    {w : List (List α)} (hw : StateFieldMap.get c sm i = .ok w) : w[k]? = w[0]? := by
  unfold StateFieldMap.get StateFieldMap.wrapper at hw
  simp only [hs, hN, Int.toNat_natCast] at hw
  obtain ⟨y, h1, h2⟩ := mapM_elem hw k k (List.getElem?_range (by omega))
  obtain ⟨z, h3, h4⟩ := mapM_elem hw 0 0 (List.getElem?_range (by omega))
  have hm : StateFieldMap.mapAt c sm k = StateFieldMap.mapAt c sm 0 := by
    unfold StateFieldMap.mapAt
    simp only [hs, he]
  rw [hm, h3] at h1
  rw [h2, h4, Res.ok.inj h1]

theorem updateAt_states {c c' : Coll α U} {sm : StateFieldMap} {F : Nat → List (List α) → List α} {i : Nat}
    (h : StateFieldMap.updateAt c sm F i = .ok c') : c'.states = c.states := by
  unfold StateFieldMap.updateAt at h
  obtain ⟨w, -, h⟩ := Res.bind_eq_ok.1 h
  obtain ⟨m, -, h⟩ := Res.bind_eq_ok.1 h
  unfold FieldMap.modifyAt at h
  cases hf : c.fields.find m.name with
  | none => rw [hf] at h; cases h
  | some f =>
    rw [hf] at h
    simp only at h
    obtain ⟨o, -, h⟩ := Res.bind_eq_ok.1 h
    simp only [Res.pure_eq, Res.ok.injEq] at h
    rw [← h]

theorem updateLoop_states {sm : StateFieldMap} {F : Nat → List (List α) → List α} {stop : Nat} :
    ∀ (fuel i : Nat) {c c' : Coll α U}, StateFieldMap.updateLoop sm F stop fuel i c = .ok c' → c'.states = c.states := by
  intro fuel
  induction fuel with
  | zero =>
    intro i c c' h
    unfold StateFieldMap.updateLoop at h
    split at h
    · rw [Res.ok.inj h]
    · cases h
  | succ fuel ih =>
    intro i c c' h
    unfold StateFieldMap.updateLoop at h
    split at h
    · rw [Res.ok.inj h]
    · obtain ⟨d, hd, h⟩ := Res.bind_eq_ok.1 h
      rw [ih _ h, updateAt_states hd]

/-- What a map made on a steppable state field reads. -/
theorem get_made {srt : SortFn} {c : Coll α U} (hb : Built srt c) (hi : c.initialised = true) {pre : String}
    {N : Nat} {it : IterUnit} {K n : Nat} (hs : Steppable c pre N it K n)
    {rows : Int} (hr : 1 ≤ rows) {sm : StateFieldMap} (hm : StateFieldMap.mk' c pre (some rows) it = .ok sm)
    {d : List α} (hd : ∀ j ≤ N, ∀ f, c.fields.find (subFieldName pre j) = some f → ∀ i < n, chunk f.vals K i = d)
    {i : Nat} (hin : i < n) :
    StateFieldMap.get c sm i = .ok ((List.range (N + 1)).map fun _ => d) := by
  obtain ⟨s, t, hs1, hs2, hs3, hs4⟩ := hs.state
  unfold StateFieldMap.mk' at hm
  simp only [hs1] at hm
  obtain ⟨f0, _, hm⟩ := Res.bind_eq_ok.1 hm
  obtain ⟨maps, hmaps, hm⟩ := Res.bind_eq_ok.1 hm
  simp only [Res.pure_eq, Res.ok.injEq] at hm
  subst hm
  unfold StateFieldMap.get StateFieldMap.wrapper
  simp only [hs1, hs2, Int.toNat_natCast]
  refine mapM_ok ?_
  intro k hk
  have hk' : k ≤ N := by simpa [Nat.lt_succ_iff] using hk
  have hlen : (cycled N t).length = N + 1 := cycled_length N t
  obtain ⟨j, hj⟩ : ∃ j, (cycled N t)[k]? = some j := ⟨_, List.getElem?_eq_getElem (by omega)⟩
  have hjN : j ≤ N := Nat.lt_succ_iff.1 (cycled_lt j (List.mem_of_getElem? hj))
  obtain ⟨f, g1, g2, g3, g4, g5⟩ := hs.fields j hjN
  obtain ⟨m, hm1, hm2⟩ := makeMaps_get hmaps j (subFieldName pre j) (by
    rw [hs3, List.getElem?_map, List.getElem?_range (by omega)]; rfl)
  obtain ⟨o1, o2, o3⟩ := mkRows_on hb.size hi g1 hr hm2
  obtain ⟨z1, z2⟩ := size_of_map hb.size hi g1 hs.dense g4 g5 o3 o2
  rw [g2, g3] at z2
  rw [g2] at o1
  unfold StateFieldMap.mapAt
  simp only [hs1, hs4, hj, hm1, Res.ok_bind]
  rw [FieldMap.access_ok o1 (le_trans (Nat.mul_le_mul_right K hin) (by omega)), hd j hjN f g1 i hin]

/-- The state field with `N` old values in `exRecInit`. -/
def exRecAny (N : Nat) : Coll Int String := (exRecInit.registerState "s" .real N 1 "quad" "" false).2

theorem exRecInit_built : Built stableSort exRecInit := by
  refine ⟨false, 2, .colMajor, [], exRecStart, by simp [SMap.Sorted], fun t n h => (by cases h), by decide +kernel,
    reachable_of_run (ops := [.setNbSubPts "quad" 2, .addPixel 3, .addPixel 8, .initLocal]) ?_ Reachable.start ?_⟩
  · intro d op hop
    simp only [List.mem_cons, List.mem_nil_iff, or_false] at hop
    rcases hop with rfl | rfl | rfl | rfl <;> simp [Adm]
  · unfold exRecInit
    rfl

theorem exRecAny_ok (N : Nat) (h : 1 ≤ N) :
    exRecInit.registerState "s" .real N 1 "quad" "" false = (.ok (), exRecAny N) := by
  have h1 := (registerState_iff exRecInit_built.size (pre := "s") (ty := .real) (nbComp := 1) (le_refl 1)
    (tag := "quad") (unit := "") N).1.2 ⟨by decide +kernel, h, fun j _ => by
      have : exRecInit.fields = [] := by decide +kernel
      rw [this]; rfl, fun _ => ⟨2, by decide +kernel, by decide⟩⟩
  rw [← h1]; rfl

/-- **C108** (which memories) Time stepping computes the recurrence, for all functions, start values and
collections, exactly if the number of fields `N + 1` of the state field is a power of two. -/
theorem C108_exact (N : Nat) (h1 : 1 ≤ N) : Steps N ↔ ∃ j, N + 1 = 2 ^ j := by
  constructor
  · intro hsteps
    by_contra hN
    obtain ⟨k, hk1, hk2, hk⟩ := initialIndices_alias hN
    have hreg := exRecAny_ok N h1
    obtain ⟨hb, hi, hst, hf⟩ := steppable_registered exRecInit_built (by decide +kernel) (by decide +kernel) (le_refl 1)
      (q := 2) (by decide +kernel) hreg (by decide +kernel) .subPt
    obtain ⟨-, s, hs, hmem, hnames, hidx, -, -⟩ := registerState_new hreg
    have e1 : perEntry 1 2 .subPt = 1 := by decide
    have e2 : nbEntry exRecInit 2 .subPt = 4 := by decide +kernel
    rw [e1, e2] at hst
    have hord : (exRecAny N).order = .colMajor := by
      have := (exRecInit.registerState_frame "s" .real N 1 "quad" "" false).1
      simp only [base, Prod.mk.injEq] at this
      exact this.2.2.1.trans (by decide +kernel)
    obtain ⟨sm, hm⟩ : ∃ sm, StateFieldMap.mk' (exRecAny N) "s" (some 1) .subPt = .ok sm := by
      obtain ⟨maps, hmaps⟩ := (StateFieldMap.makeMaps_ok (c := exRecAny N) (r := 1) (it := .subPt)
        (names := s.names)).2 (by
          intro n hn
          rw [hnames, List.mem_map] at hn
          obtain ⟨j, hj, rfl⟩ := hn
          obtain ⟨f, f1, f2, -⟩ := hf j (Nat.lt_succ_iff.1 (List.mem_range.1 hj))
          unfold FieldMap.mkRows
          simp only [f1, FieldMap.fieldStride, Res.ok_bind, f2, hord]
          exact ⟨_, rfl⟩)
      have hlen : (initialIndices N).length = N + 1 := by simp [initialIndices]
      obtain ⟨j, hj⟩ : ∃ j, (initialIndices N)[0]? = some j := ⟨_, List.getElem?_eq_getElem (by omega)⟩
      have hjN : j ≤ N := Nat.lt_succ_iff.1 (initialIndices_lt j (List.mem_of_getElem? hj))
      obtain ⟨f, f1, -, -⟩ := hf j hjN
      have hcur : (exRecAny N).stateCurrent "s" = .ok f := by
        unfold stateCurrent Coll.currentName StateField.slotName
        simp only [hs, hidx, hj, hnames, List.getElem?_map, List.getElem?_range (show j < N + 1 by omega),
          Option.map_some, f1]
      unfold StateFieldMap.mk'
      simp only [hs, hcur, Res.ok_bind, hmaps]
      exact ⟨_, rfl⟩
    have hpre : sm.pre = "s" := by
      unfold StateFieldMap.mk' at hm
      simp only [hs] at hm
      obtain ⟨_, _, hm⟩ := Res.bind_eq_ok.1 hm
      obtain ⟨_, _, hm⟩ := Res.bind_eq_ok.1 hm
      simp only [Res.pure_eq, Res.ok.injEq] at hm
      rw [← hm]
    obtain ⟨c', h2, h3⟩ := hsteps (exRecAny N) hb hi "s" .subPt 1 4 hst 1 (le_refl 1) sm hm (fun _ _ => [1])
      (fun t _ => if t ≤ N then [0] else [1])
      (fun t i => show (if t + N + 1 ≤ N then [(0 : Int)] else [1]) = [1] from if_neg (by omega))
      (fun t i _ => by show (if t ≤ N then [(0 : Int)] else [1]).length = 1; split <;> rfl)
      (by
        intro i hin
        have hd : ∀ j ≤ N, ∀ f, (exRecAny N).fields.find (subFieldName "s" j) = some f → ∀ i < 4,
            chunk f.vals 1 i = [(0 : Int)] := by
          intro j hj f hfj i hi4
          obtain ⟨g, g1, -, g3⟩ := hf j hj
          rw [hfj] at g1
          cases g1
          obtain ⟨g, g1, p1, p2, p3, p4⟩ := hst.fields j hj
          rw [hfj] at g1
          cases g1
          obtain ⟨s1, s2, s3⟩ := hb.size.size hi _ f hfj
          have hl : (i + 1) * 1 ≤ f.vals.length := by
            simp only [perIter, nbIter] at p1 p2
            have hcomp := hb.size.comp _ f hfj
            have : f.nbComp = 1 := by omega
            rw [this, hst.dense, one_mul] at s2
            omega
          have : chunk f.vals 1 i = List.replicate 1 (0 : Int) := by
            rw [List.eq_replicate_iff]
            exact ⟨chunk_length hl, fun v hv => g3 v (List.mem_of_mem_drop (List.mem_of_mem_take hv))⟩
          exact this
        rw [get_made hb hi hst (le_refl 1) hm hd hin]
        congr 1
        apply List.map_congr_left
        intro k _
        rw [if_pos (by omega)]) 1
    have h4 := h3 0 (by decide)
    unfold StateFieldMap.timeSteps StateFieldMap.timeSteps at h2
    obtain ⟨d, h5, h6⟩ := Res.bind_eq_ok.1 h2
    cases h6
    unfold StateFieldMap.timeStep Coll.cycle at h5
    simp only [hpre, hs] at h5
    unfold StateFieldMap.update at h5
    obtain ⟨stop, -, h5⟩ := Res.bind_eq_ok.1 h5
    have h7 := updateLoop_states _ _ h5
    have h8 : c'.states.find sm.pre = some
        { s with indices := s.indices.map (fun v => (v + 1) % (s.nbMemory.toNat + 1)) } := by
      rw [h7, hpre]
      exact SMap.find_insert_self _ _ _
    have h9 := get_alias h8 hmem hk2 (by
      simp only [List.getElem?_map, hidx, hk]) h4
    rw [List.getElem?_map, List.getElem?_map, List.getElem?_range (by omega), List.getElem?_range (by omega)] at h9
    simp only [Option.map_some, Option.some.injEq] at h9
    rw [if_pos (by omega), if_neg (by omega)] at h9
    exact absurd h9 (by decide)
  · intro hN c hb hi pre it K n hs rows hr sm hm G x hrec hlen hstart T
    exact C108_recurrence_partial hb hi hN hs hr hm hrec hlen hstart T

/-! ### Static maps and mapped state fields -/

theorem mapM_len {β γ : Type} {F : β → Res γ} {l : List β} {w : List γ} (h : l.mapM F = .ok w) :
    w.length = l.length := by
  have hloop : ∀ (l : List β) (acc w : List γ), List.mapM.loop F l acc = .ok w → w.length = acc.length + l.length := by
    intro l
    induction l with
    | nil =>
      intro acc w h
      simp only [List.mapM.loop, Res.pure_eq, Res.ok.injEq] at h
      simp [← h]
    | cons a l ih =>
      intro acc w h
      simp only [List.mapM.loop] at h
      obtain ⟨y, -, h⟩ := Res.bind_eq_ok.1 h
      rw [ih _ _ h, List.length_cons, List.length_cons]
      omega
  simpa using hloop l [] w h

/-- The wrappers of static maps. -/
theorem getStatic_of_get {c : Coll α U} {sm : StateFieldMap} {N i : Nat} {w : List (List α)}
    (h : StateFieldMap.get c sm i = .ok w) (hw : w.length = N + 1) : StateFieldMap.getStatic c sm N i = .ok w := by
  unfold StateFieldMap.get at h
  cases hs : c.states.find sm.pre with
  | none => rw [hs] at h; cases h
  | some s =>
    rw [hs] at h
    simp only at h
    have hl : w.length = s.nbMemory.toNat + 1 := by
      unfold StateFieldMap.wrapper at h
      simpa using mapM_len h
    have : s.nbMemory.toNat = N := by omega
    rw [this] at h
    exact h

/-- **C108** (mapped state fields) The same for a `MappedStateField` with iterates of shape `r × k` made in an
initialised collection: `T` steps give the elements of the sequence that begins with zeros.  Missing: memories `N`
with `N + 1` not a power of two, see `C108_exact`. -/
theorem C108_mapped_partial {srt : SortFn} {c0 c : Coll α U} (hb : Built srt c0) (hi : c0.initialised = true)
    (hdense : c0.nbBuf = c0.nbPixels) {pre : String} {ty : ElemType} {N : Nat} (hN : ∃ j, N + 1 = 2 ^ j)
    {r k q : Int} (hr : 1 ≤ r) (hk : 1 ≤ k) {tag : String} {unit : U} (hq : c0.subPts.find tag = some q)
    {it : IterUnit} {sm : StateFieldMap} (hm : StateFieldMap.mapped c0 pre ty r k N it tag unit = (.ok sm, c))
    (hsize : q * c0.nbPixels * (r * k) < 18446744073709551616)
    {G : Nat → List (List α) → List α} {x : Nat → Nat → List α} (hrec : Recurrence G N x)
    (hlen : ∀ t, ∀ i < nbEntry c0 q it, (x t i).length = perEntry (r * k) q it)
    (hzero : ∀ t ≤ N, ∀ i < nbEntry c0 q it, ∀ v ∈ x t i, v = default) (T : Nat) :
    ∃ c', StateFieldMap.timeSteps sm G T c = .ok c' ∧ ∀ i < nbEntry c0 q it,
      StateFieldMap.getStatic c' sm N i = .ok ((List.range (N + 1)).map fun k => x (T + N - k) i) := by
  unfold StateFieldMap.mapped at hm
  rcases hreg : c0.registerState pre ty N (r * k) tag unit false with ⟨o, c1⟩
  rw [hreg] at hm
  cases o with
  | throw e => simp at hm
  | ub => simp at hm
  | ok u =>
    simp only [Prod.mk.injEq] at hm
    obtain ⟨hm, rfl⟩ := hm
    obtain ⟨hm', -⟩ := C71_state_static hm
    obtain ⟨c', h1, h2⟩ := C108_registered_partial hb hi hdense hN (by nlinarith : 1 ≤ r * k) hq hreg hsize hr hm' hrec
      hlen hzero T
    exact ⟨c', h1, fun i hin => getStatic_of_get (h2 i hin) (by simp)⟩

/-- A mapped state field with three old values. -/
example : (∃ sm c, StateFieldMap.mapped exRecInit "s" .real 1 1 3 .subPt "quad" "" = (.ok sm, c) ∧
    (do let c' ← StateFieldMap.timeSteps sm exRecBody 5 c
        StateFieldMap.getStatic c' sm 3 2) = .ok [[12], [7], [4], [2]]) ∧
    (2 * exRecInit.nbPixels * (1 * 1) : Int) < 18446744073709551616 := by
  refine ⟨⟨(match StateFieldMap.mapped exRecInit "s" .real 1 1 3 .subPt "quad" "" with
    | (.ok sm, _) => sm
    | _ => ⟨"", .pixel, 0, []⟩), (StateFieldMap.mapped exRecInit "s" .real 1 1 3 .subPt "quad" "").2,
    by decide +kernel, by decide +kernel⟩, by decide +kernel⟩

end Verif.Props
