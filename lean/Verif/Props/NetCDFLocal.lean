import Verif.Lemmas.NetCDFLocal
import Verif.Lemmas.FileCheck
import Verif.Props.NetCDF
/-
Properties of writing and reading fields of local collections: C37.
-/
namespace Verif.Props
open Verif Verif.Ccoord Verif.Layout Verif.Layout.FieldLayout Verif.RawMemory Verif.FileIO Verif.NetCDF

variable {α : Type}

/-- **C37** The entries for the local pixels: pixel number `j` of the collection, in the order in which the
pixels were added, has the entry `off + j`; all other pixels of the process have -1. -/
theorem C37_marks {size : Nat} {off : Int} {ids : List Int} (hnd : ids.Nodup) (h0 : 0 ≤ off)
    (hin : ∀ id ∈ ids, 0 ≤ id ∧ id < (size : Int)) :
    ∃ marks, markPixels size off ids = .ok marks ∧ marks.length = size ∧
      (∀ j (h : j < ids.length), marks[ids[j].toNat]? = some (off + j)) ∧
      ∀ p : Nat, p < size → (p : Int) ∉ ids → marks[p]? = some (-1) := by
  obtain ⟨m, h1, h2, h3, h4, -⟩ := markPixels_spec hnd h0 hin
  exact ⟨m, h1, h2, h3, h4⟩

/-- Three of six pixels, added in the order 4, 1, 3, behind seven pixels of other processes. -/
example : markPixels 6 7 [4, 1, 3] = .ok [-1, 8, -1, 9, 7, -1] ∧ ([4, 1, 3] : List Int).Nodup ∧
    (∀ id ∈ ([4, 1, 3] : List Int), 0 ≤ id ∧ id < 6) := by decide

/-- A pixel id that is not on the process, such as one of a collection with padding, is written outside
the memory. -/
theorem C37_marks_outside (size : Nat) (off id : Int) (ids : List Int)
    (h : id < 0 ∨ (size : Int) ≤ id) : markPixels size off (id :: ids) = .ub := by
  rw [markPixels, markLoop, setMark, if_neg (by simp; omega)]
  rfl

/-- The facts about the entries used below. -/
theorem marked_facts {size : Nat} {off : Int} {ids marks : List Int} (hnd : ids.Nodup) (h0 : 0 ≤ off)
    (hin : ∀ id ∈ ids, 0 ≤ id ∧ id < (size : Int)) (hm : markPixels size off ids = .ok marks) :
    Var.marked marks = (sortedIds size ids).map (fun p => off + (ids.idxOf p : Nat)) ∧
      (Var.marked marks).length = ids.length ∧ (Var.marked marks).Nodup ∧
      ∀ o ∈ Var.marked marks, off ≤ o ∧ o < off + ids.length := by
  obtain ⟨m, h1, -, -, -, h5⟩ := markPixels_spec hnd h0 hin
  rw [hm] at h1
  cases h1
  have hp := sortedIds_perm hnd hin
  have hmem : ∀ p ∈ sortedIds size ids, p ∈ ids := fun p hp' => hp.mem_iff.1 hp'
  refine ⟨h5, by rw [h5, List.length_map, hp.length_eq], ?_, ?_⟩
  · rw [h5]
    refine List.Nodup.map_on ?_ (hp.nodup_iff.2 hnd)
    intro a ha b hb he
    have : ids.idxOf a = ids.idxOf b := by omega
    exact (List.idxOf_inj (hmem a ha)).1 this
  · rw [h5]
    intro o ho
    obtain ⟨p, hp', rfl⟩ := List.mem_map.1 ho
    have := List.idxOf_lt_length_of_mem (hmem p hp')
    omega

theorem filePos_comps {f f' : IoField} (h : f.layout.comps = f'.layout.comps) (lead cc : List Int) (s : Int)
    (g : List Int) : filePos f lead cc s g = filePos f' lead cc s g := by
  rw [filePos, filePos, FieldLayout.nbComp, FieldLayout.nbComp, h]

theorem form_local_congr {v v' : Var} {vname vname' : String} {f f' : IoField} {hist : Option Nat}
    {total : Int} (hv : IsLocalVar v vname f hist total) (hs : StorableShape vname f)
    (hv' : IsLocalVar v' vname' f' hist total) (hs' : StorableShape vname' f')
    (hty : f.ty = f'.ty) (hc : f.layout.comps = f'.layout.comps) (hsub : f.layout.nbSub = f'.layout.nbSub) :
    v.form = v'.form := by
  rw [Var.form, Var.form, fileShapeLocal_eq hv hs, fileShapeLocal_eq hv' hs', hc, subIdx, subIdx,
    FieldLayout.nbComp, FieldLayout.nbComp, hc, hsub, Var.dataType, Var.dataType, hv.field, hv'.field, hty]

/-- A local collection has registered its field for a file: `n` pixels `ids` out of `size` on the process,
`off` local pixels on the processes before, `total` on all, `marks` the entries of the pixels.  The
storage order is column-major (the default), or there is only one value per pixel. -/
structure LocalReady (v : Var) (vname : String) (f : IoField) (hist : Option Nat) (total : Int)
    (size : Nat) (off : Int) (ids marks : List Int) : Prop where
  field : LocalField f ids.length
  order : f.layout.order = .colMajor ∨ f.layout.nbDof = 1
  nodup : ids.Nodup
  inside : ∀ id ∈ ids, 0 ≤ id ∧ id < (size : Int)
  marked : markPixels size off ids = .ok marks
  off_nonneg : 0 ≤ off
  off_total : off + ids.length ≤ total
  total_pos : 0 < total
  registered : ∃ lname marks0, registerLocalVar vname f hist total lname marks0 = .ok v

/-- The requests of the collection that wrote the file: one per pixel. -/
theorem LocalReady.facts {v : Var} {vname : String} {f : IoField} {hist : Option Nat} {total : Int}
    {size : Nat} {off : Int} {ids marks : List Int} (h : LocalReady v vname f hist total size off ids marks) :
    IsLocalVar v vname f hist total ∧ StorableShape vname f ∧
      (Var.marked marks).length = ids.length ∧ (Var.marked marks).Nodup ∧
      ∀ o ∈ Var.marked marks, 0 ≤ o ∧ o < total := by
  obtain ⟨lname, marks0, hreg⟩ := h.registered
  obtain ⟨hv, hs⟩ := registered_local h.field h.total_pos hreg
  obtain ⟨-, h2, h3, h4⟩ := marked_facts h.nodup h.off_nonneg h.inside h.marked
  refine ⟨hv, hs, h2, h3, fun o ho => ?_⟩
  have := h4 o ho
  have := h.off_nonneg
  have := h.off_total
  omega

/-- **C37** What a round trip does: the value at place `i` of the writing collection comes back at place `i`
of the reading collection (which has read the entries of the pixels from the file).  So after reading,
the `i`-th pixel of the reading collection has the values of the `i`-th pixel of the writing
collection. -/
theorem C37_slots_partial {v v' : Var} {vname : String} {f f' : IoField} {hist : Option Nat} {total : Int}
    {size : Nat} {off : Int} {ids marks : List Int} (hw : LocalReady v vname f hist total size off ids marks)
    (hf' : LocalField f' ids.length) (hcol' : f'.layout.order = .colMajor ∨ f'.layout.nbDof = 1)
    {lname' : String} {marks0 : List Int}
    (hreg' : registerLocalVar vname f' hist total lname' marks0 = .ok v')
    (hty : f.ty = f'.ty) (hc : f.layout.comps = f'.layout.comps) (hsub : f.layout.nbSub = f'.layout.nbSub)
    {nb nb' frame frame' fr numrecs : Int} {k : Nat} (hfr : varFrame nb frame = .ok fr)
    (hfr' : varFrame nb' frame' = .ok fr) (hk : HistIdx k hist) (hn : fr < numrecs)
    {buf buf' : Mem α} {pval : List Int → Int → Int → α} {val' : List Int → Int → List Int → α}
    (hb : Holds f buf (atPixels ids pval)) (hb' : Holds f' buf' val')
    {fv : FileVar α} (hsh : fv.form = v.form) :
    ∃ fv' buf'', v.writeLocal nb frame k marks buf fv = .ok fv' ∧
      v'.readLocal nb' frame' k marks numrecs fv' buf' = .ok buf'' ∧
      Holds f' buf'' (atPixels ids pval) ∧ SameOutside f' buf' buf'' := by
  obtain ⟨hv, hs, hlen, hnd, ho⟩ := hw.facts
  obtain ⟨hv', hs'⟩ := registered_local hf' hw.total_pos hreg'
  obtain ⟨fv', e1, e2, e3, -⟩ := writeLocal_spec hv hs hw.field hw.order (by omega) hnd ho hfr hk hb hsh
  obtain ⟨buf'', val'', d1, ⟨su, d2, d3⟩, d4, d5, -⟩ := readLocal_spec hv' hs' hf' hcol' (marks := marks)
    (by omega) ho hfr' hk hn hb' (e2.trans (hsh.trans (form_local_congr hv hs hv' hs' hty hc hsub)))
  refine ⟨fv', buf'', e1, d1, ⟨su, d2, ?_⟩, d4⟩
  intro cc s g hin
  rw [d3 cc s g hin]
  obtain ⟨hcc, hs0, hs1, i, hi0, hi1, rfl⟩ := (local_inField hf').1 hin
  obtain ⟨j, rfl⟩ := Int.eq_ofNat_of_zero_le hi0
  have hj : j < (Var.marked marks).length := by omega
  rw [d5 j hj cc s, ← filePos_comps hc, e3 j hj cc s (hc ▸ hcc) hs0 (hsub ▸ hs1)]

/-- **C37** (part) If the pixels were added in the same order to the writing and the reading collection,
every pixel gets its values back.  Missing: collections with different orders, see `C37_false`; row-major
fields with several values per pixel, see `C37_row_major`. -/
theorem C37_round_trip_partial {v v' : Var} {vname : String} {f f' : IoField} {hist : Option Nat}
    {total : Int} {size : Nat} {off : Int} {ids ids' marks : List Int}
    (hw : LocalReady v vname f hist total size off ids marks) (hids : ids' = ids)
    (hf' : LocalField f' ids'.length) (hcol' : f'.layout.order = .colMajor ∨ f'.layout.nbDof = 1)
    {lname' : String} {marks0 : List Int}
    (hreg' : registerLocalVar vname f' hist total lname' marks0 = .ok v')
    (hty : f.ty = f'.ty) (hc : f.layout.comps = f'.layout.comps) (hsub : f.layout.nbSub = f'.layout.nbSub)
    {nb nb' frame frame' fr numrecs : Int} {k : Nat} (hfr : varFrame nb frame = .ok fr)
    (hfr' : varFrame nb' frame' = .ok fr) (hk : HistIdx k hist) (hn : fr < numrecs)
    {buf buf' : Mem α} {pval : List Int → Int → Int → α} {val' : List Int → Int → List Int → α}
    (hb : Holds f buf (atPixels ids pval)) (hb' : Holds f' buf' val')
    {fv : FileVar α} (hsh : fv.form = v.form) :
    ∃ fv' buf'', v.writeLocal nb frame k marks buf fv = .ok fv' ∧
      v'.readLocal nb' frame' k marks numrecs fv' buf' = .ok buf'' ∧
      Holds f' buf'' (atPixels ids' pval) := by
  subst hids
  obtain ⟨fv', buf'', h1, h2, h3, -⟩ := C37_slots_partial hw hf' hcol' hreg' hty hc hsub hfr hfr' hk hn hb hb' hsh
  exact ⟨fv', buf'', h1, h2, h3⟩

/-! ### The example -/

/-- A field on three local pixels, two components on two sub-points. -/
def exLocalField : IoField :=
  ⟨"plastic", "quad", ⟨.colMajor, [2], 2, [3], [1], 3⟩, 3, false, [], [0], .real⟩

def exLocalVar : Var :=
  ⟨"plastic", exLocalField, none,
    [⟨"frame", 0⟩, ⟨"tensor_dim__plastic-0", 2⟩, ⟨"subpt__quad-2", 2⟩, ⟨"pts__plastic", 10⟩], false, "inclusion"⟩

theorem exLocalField_field : LocalField exLocalField 3 :=
  ⟨by decide, by decide, by decide, by decide, rfl, rfl, rfl, rfl, rfl, by decide⟩

theorem exLocalField_registered : registerLocalVar "plastic" exLocalField none 10 "inclusion" [-1, 8, -1, 9, 7, -1] =
    .ok exLocalVar := by decide +kernel

/-- The pixels 4, 1 and 3, as added. -/
theorem exLocalField_ready : LocalReady exLocalVar "plastic" exLocalField none 10 6 7 [4, 1, 3] [-1, 8, -1, 9, 7, -1] :=
  ⟨exLocalField_field, by decide, by decide, by decide, by decide, by decide, by decide, by decide,
    ⟨"inclusion", _, exLocalField_registered⟩⟩

theorem exLocalField_holds : Holds exLocalField (fun a => if 0 ≤ a ∧ a < 12 then some a else none)
    (atPixels [4, 1, 3] fun cc s p => dot [1, 2, 4] (cc ++ [s, if p = 4 then 0 else if p = 1 then 1 else 2])) := by
  refine ⟨[1, 2, 4], by decide, ?_⟩
  intro cc s g hin
  obtain ⟨hcc, hs0, hs1, i, hi0, hi1, rfl⟩ := (local_inField exLocalField_field).1 hin
  rcases cc with _ | ⟨x, _ | ⟨y, cc⟩⟩ <;> simp [exLocalField, InBox] at hcc hs1
  have hi : i = 0 ∨ i = 1 ∨ i = 2 := by omega
  have e : memPos exLocalField [1, 2, 4] [x] s [i] = x + (s * 2 + i * 4) := by
    simp [memPos, exLocalField, relCoord, dot, mul_comm]
  rw [e]
  beta_reduce
  rw [if_pos (by omega)]
  rcases hi with rfl | rfl | rfl <;> simp [atPixels, dot] <;> omega

/-- The hypotheses of `C37_round_trip_partial` are met. -/
example : LocalReady exLocalVar "plastic" exLocalField none 10 6 7 [4, 1, 3] [-1, 8, -1, 9, 7, -1] ∧
    (∃ pval : List Int → Int → Int → Int,
      Holds exLocalField (fun a => if 0 ≤ a ∧ a < 12 then some a else none) (atPixels [4, 1, 3] pval)) ∧
    varFrame 3 (-1) = .ok 2 ∧ HistIdx 0 none :=
  ⟨exLocalField_ready, ⟨_, exLocalField_holds⟩, by decide, rfl⟩

/-- **C37** Which local fields can be registered: exactly those with clean names that are not complex and not
scalars on several sub-points.  All others raise an error at registration. -/
theorem C37_registrable (vname : String) (f : IoField) (hist : Option Nat) (total n : Int) (lname : String)
    (marks : List Int) (hf : LocalField f n) (ht : 0 < total) :
    (∃ v, registerLocalVar vname f hist total lname marks = .ok v) ↔
      f.ty ≠ .complex ∧ (f.layout.nbComp = 1 → f.layout.nbSub = 1) ∧ Clean vname ∧
        (f.layout.nbComp ≠ 1 → Clean f.tag) := by
  constructor
  · rintro ⟨v, h⟩
    obtain ⟨hv, hs⟩ := registered_local hf ht h
    exact ⟨hv.ty, hs.sub_scalar, hv.clean, hs.clean_tag⟩
  · rintro ⟨h0, h1, h2, h3⟩
    refine ⟨⟨vname, f, hist, localDims vname f hist total, false, lname⟩, ?_⟩
    have := checkLocal_ok (v := ⟨vname, f, hist, localDims vname f hist total, false, lname⟩) hf
      ⟨rfl, rfl, by rw [localDims, if_pos (by omega)], h2, by omega, h0⟩
      ⟨hf.order, hf.comps_pos, hf.comps_len, hf.sub_pos, h1, fun _ => h2, h3⟩ marks
    obtain ⟨t, ht⟩ := ncTypeOf_of_ne h0
    rw [registerLocalVar, ht, Res.ok_bind]
    exact (congrArg (fun x => Bind.bind x _) this).trans rfl

/-- Both sides occur: the field of the example, and a scalar on two sub-points. -/
example : (exLocalField.layout.nbComp ≠ 1 ∧ Clean "plastic" ∧ Clean exLocalField.tag) ∧
    LocalField ⟨"s", "quad", ⟨.colMajor, [1], 2, [3], [1], 3⟩, 3, false, [], [0], .int⟩ 3 ∧
    registerLocalVar "s" ⟨"s", "quad", ⟨.colMajor, [1], 2, [3], [1], 3⟩, 3, false, [], [0], .int⟩ none 10 "inclusion"
      [-1, 8, -1, 9, 7, -1] = .throw .fileIOError :=
  ⟨⟨by decide, by decide +kernel, by decide +kernel⟩,
    ⟨by decide, by decide, by decide, by decide, rfl, rfl, rfl, rfl, rfl, by decide⟩, by decide +kernel⟩

/-! ### The full statement is false -/

/-- The full statement: the order in which pixels were added to the two collections does not matter. -/
def C37_statement : Prop :=
  ∀ (v v' : Var) (vname : String) (f f' : IoField) (hist : Option Nat) (total : Int) (size : Nat) (off : Int)
    (ids ids' marks : List Int), LocalReady v vname f hist total size off ids marks → ids'.Perm ids →
    LocalField f' ids'.length → (f'.layout.order = .colMajor ∨ f'.layout.nbDof = 1) →
    (∃ lname' marks0, registerLocalVar vname f' hist total lname' marks0 = .ok v') →
    f.ty = f'.ty → f.layout.comps = f'.layout.comps → f.layout.nbSub = f'.layout.nbSub →
    ∀ (nb frame fr numrecs : Int) (k : Nat), varFrame nb frame = .ok fr → HistIdx k hist → fr < numrecs →
    ∀ (buf buf' : Mem Int) (pval : List Int → Int → Int → Int) (val' : List Int → Int → List Int → Int),
    Holds f buf (atPixels ids pval) → Holds f' buf' val' →
    ∀ fv : FileVar Int, fv.form = v.form →
    ∃ fv' buf'', v.writeLocal nb frame k marks buf fv = .ok fv' ∧
      v'.readLocal nb frame k marks numrecs fv' buf' = .ok buf'' ∧ Holds f' buf'' (atPixels ids' pval)

/-- **C37** does not hold: with the pixels added in the order 4, 1, 3 and read into a collection with the
order 1, 3, 4, pixel 1 gets the values of pixel 4. -/
theorem C37_false : ¬ C37_statement := by
  intro h
  obtain ⟨fv', buf'', h1, h2, ⟨su, h3, h4⟩⟩ := h exLocalVar exLocalVar "plastic" exLocalField exLocalField none 10 6 7
    [4, 1, 3] [1, 3, 4] _ exLocalField_ready (by decide) exLocalField_field (by decide)
    ⟨_, _, exLocalField_registered⟩ rfl rfl rfl 3 (-1) 2 3 0 (by decide) rfl (by decide) _ _ _ _ exLocalField_holds
    exLocalField_holds ⟨fileShape exLocalVar.dims, .double, fun _ => 0⟩ rfl
  obtain ⟨fv2, buf2, e1, e2, ⟨su', e3, e4⟩, -⟩ := C37_slots_partial exLocalField_ready exLocalField_field (by decide)
    exLocalField_registered rfl rfl rfl (nb := 3) (nb' := 3) (frame := -1) (frame' := -1) (fr := 2) (numrecs := 3)
    (k := 0) (by decide) (by decide) rfl (by decide) exLocalField_holds exLocalField_holds
    (fv := ⟨fileShape exLocalVar.dims, .double, fun _ => 0⟩) rfl
  rw [h1] at e1
  cases e1
  rw [h2] at e2
  cases e2
  rw [h3] at e3
  cases e3
  have hin : InField exLocalField [0] 0 [0] := by
    rw [local_inField exLocalField_field]
    exact ⟨by decide, by decide, by decide, 0, by decide, by decide, rfl⟩
  have := (h4 _ _ _ hin).symm.trans (e4 _ _ _ hin)
  revert this
  decide

/-- **C37** (row-major) A row-major local field with several values per pixel is read from outside its
memory: the code steps through the memory pixel by pixel as if the values of a pixel lay together. -/
theorem C37_row_major : registerLocalVar "v" ⟨"v", "", ⟨.rowMajor, [2], 1, [2], [1], 2⟩, 2, false, [], [0], .uint⟩ none 2
      "inclusion" [0, 1] = .ok ⟨"v", ⟨"v", "", ⟨.rowMajor, [2], 1, [2], [1], 2⟩, 2, false, [], [0], .uint⟩, none,
        [⟨"frame", 0⟩, ⟨"tensor_dim__v-0", 2⟩, ⟨"subpt__-1", 1⟩, ⟨"pts__v", 2⟩], false, "inclusion"⟩ ∧
    ((⟨"v", ⟨"v", "", ⟨.rowMajor, [2], 1, [2], [1], 2⟩, 2, false, [], [0], .uint⟩, none,
        [⟨"frame", 0⟩, ⟨"tensor_dim__v-0", 2⟩, ⟨"subpt__-1", 1⟩, ⟨"pts__v", 2⟩], false, "inclusion"⟩ : Var).writeLocal
      1 0 0 [0, 1] (fun a => if 0 ≤ a ∧ a < 4 then some a else none)
      (⟨[none, some 2, some 1, some 2], .uint, fun _ => 0⟩ : FileVar Int) matches .ub) = true := by
  decide +kernel

/-- **C37** (fewer pixels) Reading into a collection with fewer pixels than the file has entries on the process
writes outside the memory of the field. -/
theorem C37_fewer_pixels : registerLocalVar "c" ⟨"c", "", ⟨.colMajor, [1], 1, [1], [1], 1⟩, 1, false, [], [0], .real⟩ none 2
      "inclusion" [-1, -1] = .ok ⟨"c", ⟨"c", "", ⟨.colMajor, [1], 1, [1], [1], 1⟩, 1, false, [], [0], .real⟩, none,
        [⟨"frame", 0⟩, ⟨"tensor_dim__c-0", 1⟩, ⟨"pts__c", 2⟩], false, "inclusion"⟩ ∧
    ((⟨"c", ⟨"c", "", ⟨.colMajor, [1], 1, [1], [1], 1⟩, 1, false, [], [0], .real⟩, none,
        [⟨"frame", 0⟩, ⟨"tensor_dim__c-0", 1⟩, ⟨"pts__c", 2⟩], false, "inclusion"⟩ : Var).readLocal
      1 0 0 [0, 1] 1 (⟨[none, some 1, some 2], .double, fun _ => 5⟩ : FileVar Int)
      (fun a => if 0 ≤ a ∧ a < 1 then some a else none) matches .ub) = true := by
  decide +kernel

/-! ### Collections with the pixels in ascending order -/

/-- **C37** (part) If the pixels were added in ascending order, the values of every pixel lie in the file at
the entry of that pixel.  Values of other processes and other frames do not change. -/
theorem C37_file_partial {v : Var} {vname : String} {f : IoField} {hist : Option Nat} {total : Int}
    {size : Nat} {off : Int} {ids marks : List Int} (hw : LocalReady v vname f hist total size off ids marks)
    (hasc : ids.Pairwise (· < ·))
    {nb frame fr : Int} {k : Nat} (hfr : varFrame nb frame = .ok fr) (hk : HistIdx k hist)
    {buf : Mem α} {pval : List Int → Int → Int → α} (hb : Holds f buf (atPixels ids pval))
    {fv : FileVar α} (hsh : fv.form = v.form) :
    ∃ fv', v.writeLocal nb frame k marks buf fv = .ok fv' ∧ fv'.form = fv.form ∧
      (∀ p ∈ ids, ∃ m, marks[p.toNat]? = some m ∧ off ≤ m ∧ m < off + ids.length ∧
        ∀ cc s, InBox f.layout.comps cc → 0 ≤ s → s < f.layout.nbSub →
        fv'.data (filePos f (leadPos false fr k hist) cc s [m]) = pval cc s p) ∧
      ∀ y, (∀ m cc s, off ≤ m → m < off + ids.length → InBox f.layout.comps cc →
        y ≠ filePos f (leadPos false fr k hist) cc s [m]) → fv'.data y = fv.data y := by
  obtain ⟨hv, hs, hlen, hnd, ho⟩ := hw.facts
  obtain ⟨hmk, -, -, hrange⟩ := marked_facts hw.nodup hw.off_nonneg hw.inside hw.marked
  obtain ⟨m0, g1, g2, g3, -⟩ := C37_marks hw.nodup hw.off_nonneg hw.inside
  rw [hw.marked] at g1
  cases g1
  obtain ⟨fv', e1, e2, e3, e4⟩ := writeLocal_spec hv hs hw.field hw.order (by omega) hnd ho hfr hk hb hsh
  rw [← leadPos_eq] at e3 e4
  refine ⟨fv', e1, e2, ?_, ?_⟩
  · intro p hp
    obtain ⟨j, hj, rfl⟩ := List.getElem_of_mem hp
    refine ⟨off + j, g3 j hj, by omega, by omega, ?_⟩
    intro cc s hcc hs0 hs1
    have hj' : j < (Var.marked marks).length := by omega
    have hmj : (Var.marked marks)[j] = off + j := by
      have hso := sortedIds_of_sorted hasc hw.inside
      simp only [hmk, hso, List.getElem_map]
      rw [hw.nodup.idxOf_getElem]
    have := e3 j hj' cc s hcc hs0 hs1
    rw [hmj] at this
    rw [this]
    simp [atPixels, hj]
  · intro y hy
    refine e4 y fun o ho' cc s hcc _ _ => ?_
    have := hrange o ho'
    exact hy o cc s this.1 this.2 hcc

/-- **C37** (part) If the pixels of the reading collection are exactly those that have an entry in the file, in
ascending order, every pixel gets the values at its entry; also with another decomposition than the one
that wrote the file. -/
theorem C37_read_partial {v : Var} {vname : String} {f : IoField} {hist : Option Nat} {total : Int}
    {ids marks : List Int} (hf : LocalField f ids.length)
    (hcol : f.layout.order = .colMajor ∨ f.layout.nbDof = 1) (ht : 0 < total)
    {lname : String} {marks0 : List Int} (hreg : registerLocalVar vname f hist total lname marks0 = .ok v)
    (hasc : ids.Pairwise (· < ·)) (hids : ∀ p : Nat, (p : Int) ∈ ids ↔ ∃ m, marks[p]? = some m ∧ m ≠ -1)
    (hnn : ∀ p ∈ ids, 0 ≤ p) (hrange : ∀ m ∈ marks, m ≠ -1 → 0 ≤ m ∧ m < total)
    {nb frame fr numrecs : Int} {k : Nat} (hfr : varFrame nb frame = .ok fr) (hk : HistIdx k hist)
    (hn : fr < numrecs) {buf : Mem α} {val : List Int → Int → List Int → α} (hb : Holds f buf val)
    {fv : FileVar α} (hsh : fv.form = v.form) :
    ∃ buf', v.readLocal nb frame k marks numrecs fv buf = .ok buf' ∧
      Holds f buf' (atPixels ids fun cc s p =>
        fv.data (filePos f (leadPos false fr k hist) cc s [marks.getD p.toNat (-1)])) ∧ SameOutside f buf buf' := by
  obtain ⟨hv, hs⟩ := registered_local hf ht hreg
  have hin : ∀ p ∈ ids, 0 ≤ p ∧ p < (marks.length : Int) := by
    intro p hp
    obtain ⟨q, rfl⟩ := Int.eq_ofNat_of_zero_le (hnn p hp)
    obtain ⟨m, hm, -⟩ := (hids q).1 hp
    have := (List.getElem?_eq_some_iff.1 hm).1
    omega
  have hmk : Var.marked marks = ids.map fun p => marks.getD p.toNat (-1) := by
    have h1 := marked_map marks.length ids (fun p => if p ∈ ids then marks.getD p.toNat (-1) else -1) ?_ ?_ marks rfl ?_
    · rw [h1, sortedIds_of_sorted hasc hin]
      exact List.map_congr_left fun p hp => if_pos hp
    · intro p hp
      rw [if_pos hp]
      obtain ⟨q, rfl⟩ := Int.eq_ofNat_of_zero_le (hnn p hp)
      obtain ⟨m, hm, hne⟩ := (hids q).1 hp
      simpa [hm] using hne
    · intro p hp; exact if_neg hp
    · intro p hp
      by_cases hpi : (p : Int) ∈ ids
      · rw [if_pos hpi]; simp [hp]
      · rw [if_neg hpi]
        rw [hids] at hpi
        push Not at hpi
        obtain ⟨m, hm⟩ : ∃ m, marks[p]? = some m := ⟨_, List.getElem?_eq_getElem hp⟩
        rw [hm, hpi m hm]
  have ho : ∀ o ∈ Var.marked marks, 0 ≤ o ∧ o < total := by
    intro o ho
    simp only [Var.marked, List.mem_filter, decide_eq_true_eq] at ho
    exact hrange o ho.1 ho.2
  have hlen : (Var.marked marks).length = ids.length := by rw [hmk, List.length_map]
  obtain ⟨buf', val', d1, ⟨su, d2, d3⟩, d4, d5, -⟩ := readLocal_spec hv hs hf hcol (marks := marks)
    (by omega) ho hfr hk hn hb hsh
  refine ⟨buf', d1, ⟨su, d2, ?_⟩, d4⟩
  intro cc s g hin'
  rw [d3 cc s g hin']
  obtain ⟨hcc, hs0, hs1, i, hi0, hi1, rfl⟩ := (local_inField hf).1 hin'
  obtain ⟨j, rfl⟩ := Int.eq_ofNat_of_zero_le hi0
  have hj : j < (Var.marked marks).length := by omega
  have hj2 : j < ids.length := by omega
  have he : (Var.marked marks)[j] = marks.getD ids[j].toNat (-1) := by simp [hmk]
  rw [d5 j hj cc s, he, leadPos_eq]
  simp [atPixels, hj2]

/-- A process with its part of a local field: `coord p` is the pixel of the domain with the id `p`. -/
structure LocalRank (α G : Type) where
  v : Var
  f : IoField
  size : Nat
  off : Int
  ids : List Int
  marks : List Int
  buf : Mem α
  coord : Int → G

/-- The process has registered the field, its pixels are in ascending order and its memory holds the values
given for the pixels of the domain. -/
structure LocalRank.Ready {G : Type} (r : LocalRank α G) (vname : String) (hist : Option Nat) (total : Int)
    (val : List Int → Int → G → α) : Prop where
  ready : LocalReady r.v vname r.f hist total r.size r.off r.ids r.marks
  ascending : r.ids.Pairwise (· < ·)
  holds : Holds r.f r.buf (atPixels r.ids fun cc s p => val cc s (r.coord p))

/-- The ranges of the entries of two processes do not overlap. -/
def LocalRank.Apart {G : Type} (r r' : LocalRank α G) : Prop :=
  r.off + (r.ids.length : Int) ≤ r'.off ∨ r'.off + (r'.ids.length : Int) ≤ r.off

/-- **C37** (part) Collective writing: if the ranges of the entries do not overlap (`C33_offsets`), all values of
all processes lie at the entries of their pixels. -/
theorem C37_collective_partial {G : Type} {vname : String} {hist : Option Nat} {total : Int}
    {val : List Int → Int → G → α} (ws : List (LocalRank α G)) (comps : List Int) (nbSub : Int)
    (hr : ∀ r ∈ ws, r.Ready vname hist total val) (hcs : ∀ r ∈ ws, r.f.layout.comps = comps)
    (hsu : ∀ r ∈ ws, r.f.layout.nbSub = nbSub)
    (hdis : ws.Pairwise LocalRank.Apart)
    {nb frame fr : Int} {k : Nat} (hfr : varFrame nb frame = .ok fr) (hk : HistIdx k hist)
    {fv : FileVar α} (hsh : ∀ r ∈ ws, fv.form = r.v.form) :
    ∃ fv', Var.writeAllLocal nb frame k (ws.map fun r => (r.v, r.marks, r.buf)) fv = .ok fv' ∧
      fv'.form = fv.form ∧
      (∀ r ∈ ws, ∀ p ∈ r.ids, ∃ m, r.marks[p.toNat]? = some m ∧ r.off ≤ m ∧ m < r.off + r.ids.length ∧
        ∀ cc s, InBox comps cc → 0 ≤ s → s < nbSub →
        fv'.data (filePos r.f (leadPos false fr k hist) cc s [m]) = val cc s (r.coord p)) ∧
      ∀ y, (∀ r ∈ ws, ∀ m cc s, r.off ≤ m → m < r.off + r.ids.length → InBox r.f.layout.comps cc →
        y ≠ filePos r.f (leadPos false fr k hist) cc s [m]) → fv'.data y = fv.data y := by
  induction ws generalizing fv with
  | nil => exact ⟨fv, rfl, rfl, by simp, fun _ _ => rfl⟩
  | cons r ws ih =>
    rw [List.pairwise_cons] at hdis
    have hr0 := hr r (by simp)
    obtain ⟨fv1, h1, h2, h3, h4⟩ := C37_file_partial hr0.ready hr0.ascending hfr hk hr0.holds
      (hsh r (by simp))
    obtain ⟨fv2, e1, e2, e3, e4⟩ := ih (fun r' h => hr r' (by simp [h])) (fun r' h => hcs r' (by simp [h]))
      (fun r' h => hsu r' (by simp [h])) hdis.2 (fv := fv1) (fun r' h => h2.trans (hsh r' (by simp [h])))
    refine ⟨fv2, ?_, e2.trans h2, ?_, ?_⟩
    · rw [List.map_cons, Var.writeAllLocal, h1, Res.ok_bind, e1]
    · intro r' hr' p hp
      rcases List.mem_cons.1 hr' with rfl | hr'
      · obtain ⟨m, hm, hm0, hm1, hv⟩ := h3 p hp
        refine ⟨m, hm, hm0, hm1, ?_⟩
        intro cc s hcc hs0 hs1
        have hc := hcs r' (by simp)
        rw [e4, hv cc s (hc ▸ hcc) hs0 (by rw [hsu r' (by simp)]; exact hs1)]
        intro r2 hr2 m' cc' s' hm0' hm1' hcc' he
        have hc2 := hcs r2 (by simp [hr2])
        rw [filePos_comps (f' := r'.f) (hc2.trans hc.symm)] at he
        have := filePos_off (hc ▸ hcc) (by rw [hc, ← hc2]; exact hcc') he
        have := hdis.1 r2 hr2
        rw [LocalRank.Apart] at this
        omega
      · exact e3 r' hr' p hp
    · intro y hy
      rw [e4 y fun r' hr' => hy r' (by simp [hr']),
        h4 y fun m cc s hm0 hm1 hcc => hy r (by simp) m cc s hm0 hm1 hcc]

/-- **C37** (part) Another decomposition may read the file: the processes `ws` write (pixels in ascending
order); the reading process has the entries `M` of its pixels (read from the file), and its collection has
exactly the pixels that belong to a collection of some writing process, in ascending order.  Then every
pixel gets the values it had on the process that wrote it. -/
theorem C37_redistribute_partial {G : Type} {vname : String} {hist : Option Nat} {total : Int}
    {val : List Int → Int → G → α} (ws : List (LocalRank α G)) (hne : ws ≠ [])
    (hr : ∀ r ∈ ws, r.Ready vname hist total val)
    (hdis : ws.Pairwise LocalRank.Apart)
    {nb nb' frame frame' fr numrecs : Int} {k : Nat} (hfr : varFrame nb frame = .ok fr)
    (hfr' : varFrame nb' frame' = .ok fr) (hk : HistIdx k hist) (hn : fr < numrecs)
    {fv : FileVar α} (hsh : ∀ r ∈ ws, fv.form = r.v.form)
    -- the entries in the file, by pixel of the domain
    {M : G → Int} (hM : ∀ r ∈ ws, ∀ p : Nat, p < r.size → r.marks[p]? = some (M (r.coord p)))
    -- the reading process
    {v' : Var} {f' : IoField} {size' : Nat} {ids' marks' : List Int} {coord' : Int → G} {lname' : String}
    {marks0 : List Int} (hf' : LocalField f' ids'.length)
    (hcol' : f'.layout.order = .colMajor ∨ f'.layout.nbDof = 1)
    (hreg' : registerLocalVar vname f' hist total lname' marks0 = .ok v')
    (hty : ∀ r ∈ ws, r.f.ty = f'.ty)
    (hc : ∀ r ∈ ws, r.f.layout.comps = f'.layout.comps) (hsub : ∀ r ∈ ws, r.f.layout.nbSub = f'.layout.nbSub)
    (hasc' : ids'.Pairwise (· < ·)) (hin' : ∀ p ∈ ids', 0 ≤ p ∧ p < (size' : Int))
    (hmarks' : marks' = (List.range size').map fun (p : Nat) => M (coord' p))
    (hcover : ∀ p : Nat, p < size' → ∃ r ∈ ws, ∃ q : Nat, q < r.size ∧ r.coord q = coord' p)
    (hids' : ∀ p : Nat, p < size' → ((p : Int) ∈ ids' ↔ ∃ r ∈ ws, ∃ q ∈ r.ids, r.coord q = coord' p))
    {buf' : Mem α} {val' : List Int → Int → List Int → α} (hb' : Holds f' buf' val') :
    ∃ fv' buf'', Var.writeAllLocal nb frame k (ws.map fun r => (r.v, r.marks, r.buf)) fv = .ok fv' ∧
      v'.readLocal nb' frame' k marks' numrecs fv' buf' = .ok buf'' ∧
      Holds f' buf'' (atPixels ids' fun cc s p => val cc s (coord' p)) := by
  obtain ⟨fv', h1, h2, h3, -⟩ := C37_collective_partial ws f'.layout.comps f'.layout.nbSub hr hc hsub hdis
    hfr hk hsh
  obtain ⟨r0, hr0⟩ := List.exists_mem_of_ne_nil ws hne
  have ht : 0 < total := (hr r0 hr0).ready.total_pos
  obtain ⟨hv0, hs0, -⟩ := (hr r0 hr0).ready.facts
  obtain ⟨hv', hs'⟩ := registered_local hf' ht hreg'
  -- an entry of the reader is one of a pixel of a collection, or -1
  have hent : ∀ r ∈ ws, ∀ q : Nat, q < r.size →
      ((q : Int) ∈ r.ids ∧ r.off ≤ M (r.coord q) ∧ M (r.coord q) < r.off + r.ids.length) ∨
      ((q : Int) ∉ r.ids ∧ M (r.coord q) = -1) := by
    intro r hr1 q hq
    have hrd := (hr r hr1).ready
    obtain ⟨m0, g1, g2, g3, g4⟩ := C37_marks hrd.nodup hrd.off_nonneg hrd.inside
    rw [hrd.marked] at g1
    cases g1
    by_cases hqi : (q : Int) ∈ r.ids
    · obtain ⟨m, hm, hm0, hm1, -⟩ := h3 r hr1 q hqi
      have := hM r hr1 q hq
      simp only [Int.toNat_natCast] at hm
      rw [hm] at this
      cases this
      exact Or.inl ⟨hqi, hm0, hm1⟩
    · have := hM r hr1 q hq
      rw [g4 q hq hqi] at this
      exact Or.inr ⟨hqi, (Option.some.inj this).symm⟩
  have hlen' : marks'.length = size' := by rw [hmarks']; simp
  have hget' : ∀ p : Nat, p < size' → marks'[p]? = some (M (coord' p)) := by
    intro p hp
    rw [hmarks']
    simp [hp]
  -- a pixel of a writing process with the coordinates of a pixel of the reader
  have hfind : ∀ p : Nat, p < size' → ∀ r ∈ ws, ∀ q ∈ r.ids, r.coord q = coord' p →
      ∃ m, r.marks[q.toNat]? = some m ∧ m = M (coord' p) ∧ 0 ≤ m ∧ m < total := by
    intro p hp r hr1 q hq he
    have hrd := (hr r hr1).ready
    have hqi := hrd.inside q hq
    obtain ⟨n, rfl⟩ := Int.eq_ofNat_of_zero_le hqi.1
    have h5 := hM r hr1 n (by omega)
    have h6 := hrd.off_nonneg
    have h7 := hrd.off_total
    rcases hent r hr1 n (by omega) with ⟨-, h8, h9⟩ | ⟨h8, -⟩
    · rw [he] at h5 h8 h9
      exact ⟨_, h5, rfl, by omega, by omega⟩
    · exact absurd hq h8
  have hA : ∀ p : Nat, (p : Int) ∈ ids' ↔ ∃ m, marks'[p]? = some m ∧ m ≠ -1 := by
    intro p
    constructor
    · intro hp
      have hps : p < size' := by have := hin' _ hp; omega
      obtain ⟨r, hr1, q, hq, he⟩ := (hids' p hps).1 hp
      obtain ⟨m, g1, g2, g3, -⟩ := hfind p hps r hr1 q hq he
      exact ⟨m, by rw [hget' p hps, g2], by omega⟩
    · rintro ⟨m, hm, hne⟩
      have hps : p < size' := by
        have := (List.getElem?_eq_some_iff.1 hm).1; omega
      rw [hget' p hps] at hm
      cases hm
      obtain ⟨r, hr1, q, hq, he⟩ := hcover p hps
      rcases hent r hr1 q hq with ⟨h5, -⟩ | ⟨-, h5⟩
      · exact (hids' p hps).2 ⟨r, hr1, q, h5, he⟩
      · rw [he] at h5; exact absurd h5 hne
  have hB : ∀ m ∈ marks', m ≠ -1 → 0 ≤ m ∧ m < total := by
    intro m hm hne
    obtain ⟨p, hp, rfl⟩ := List.getElem_of_mem hm
    have hps : p < size' := by omega
    have hg := hget' p hps
    rw [List.getElem?_eq_getElem hp, Option.some.injEq] at hg
    rw [hg] at hne ⊢
    obtain ⟨r, hr1, q, hq, he⟩ := hcover p hps
    rcases hent r hr1 q hq with ⟨h5, -⟩ | ⟨-, h5⟩
    · obtain ⟨m, -, rfl, g3, g4⟩ := hfind p hps r hr1 q h5 he
      exact ⟨g3, g4⟩
    · rw [he] at h5; exact absurd h5 hne
  obtain ⟨buf'', d1, ⟨su, d2, d3⟩, -⟩ := C37_read_partial hf' hcol' ht hreg' hasc'
    (marks := marks') hA (fun p hp => (hin' p hp).1) hB hfr' hk hn hb'
    (h2.trans ((hsh r0 hr0).trans (form_local_congr hv0 hs0 hv' hs' (hty r0 hr0) (hc r0 hr0) (hsub r0 hr0))))
  refine ⟨fv', buf'', h1, d1, ⟨su, d2, ?_⟩⟩
  intro cc s g hin
  rw [d3 cc s g hin]
  obtain ⟨hcc, hs0', hs1', i, hi0, hi1, rfl⟩ := (local_inField hf').1 hin
  obtain ⟨j, rfl⟩ := Int.eq_ofNat_of_zero_le hi0
  have hj : j < ids'.length := by omega
  have hgd : ids'.getD j 0 = ids'[j] := by simp [hj]
  simp only [atPixels, List.headD_cons, Int.toNat_natCast, hgd]
  have hpm : ids'[j] ∈ ids' := List.getElem_mem hj
  have hpi := hin' _ hpm
  obtain ⟨p, hp⟩ := Int.eq_ofNat_of_zero_le hpi.1
  rw [hp] at hpm hpi ⊢
  have hps : p < size' := by omega
  obtain ⟨r, hr1, q, hq, he⟩ := (hids' p hps).1 hpm
  obtain ⟨m, g1, g2, -, -⟩ := hfind p hps r hr1 q hq he
  obtain ⟨m', k1, -, -, k2⟩ := h3 r hr1 q hq
  rw [g1] at k1
  cases k1
  have : marks'.getD ((p : Int)).toNat (-1) = m := by
    rw [g2, Int.toNat_natCast, List.getD_eq_getElem?_getD, hget' p hps]; rfl
  rw [this, ← he, ← k2 cc s hcc hs0' hs1', ← filePos_comps (hc r hr1)]

/-! ### The hypotheses of `C37_redistribute_partial`, met -/

/-- The domain has four pixels; each of two processes has two, with one pixel of the collection. -/
def exScalar (n : Int) : IoField :=
  ⟨"c", "", ⟨.colMajor, [1], 1, [n], [1], n⟩, n, false, [], [0], .real⟩

def exScalarVar (n : Int) : Var :=
  ⟨"c", exScalar n, none, [⟨"frame", 0⟩, ⟨"tensor_dim__c-0", 1⟩, ⟨"pts__c", 2⟩], false, "inc"⟩

def exRankA : LocalRank Int Int :=
  ⟨exScalarVar 1, exScalar 1, 2, 0, [1], [-1, 0], fun a => if a = 0 then some 10 else none, fun p => p⟩

def exRankB : LocalRank Int Int :=
  ⟨exScalarVar 1, exScalar 1, 2, 1, [0], [1, -1], fun a => if a = 0 then some 20 else none, fun p => p + 2⟩

/-- The values of the pixels of the domain, and their entries. -/
def exScalarVal (_ : List Int) (_ p : Int) : Int := p * 10

def exScalarEntry (p : Int) : Int := if p = 1 then 0 else if p = 2 then 1 else -1

theorem exScalar_field (n : Nat) : LocalField (exScalar n) n :=
  ⟨Or.inl rfl, (show Pos [1] by decide), by simp [exScalar], by simp [exScalar], rfl, rfl, rfl, rfl, rfl,
    by omega⟩

theorem exRankA_ready : exRankA.Ready "c" none 2 exScalarVal :=
  ⟨⟨exScalar_field 1, Or.inl rfl, by decide, by decide, by decide, by decide, by decide, by decide,
    ⟨"inc", [], by decide +kernel⟩⟩, by decide, [1, 1, 1], by decide, by
      intro cc s g hin
      obtain ⟨hcc, hs0, hs1, i, hi0, hi1, rfl⟩ := (local_inField (exScalar_field 1)).1 hin
      rcases cc with _ | ⟨x, _ | ⟨y, cc⟩⟩ <;> simp [exScalar, InBox] at hcc hs1 hi1
      obtain rfl : x = 0 := by omega
      obtain rfl : s = 0 := by omega
      obtain rfl : i = 0 := by omega
      rfl⟩

theorem exRankB_ready : exRankB.Ready "c" none 2 exScalarVal :=
  ⟨⟨exScalar_field 1, Or.inl rfl, by decide, by decide, by decide, by decide, by decide, by decide,
    ⟨"inc", [], by decide +kernel⟩⟩, by decide, [1, 1, 1], by decide, by
      intro cc s g hin
      obtain ⟨hcc, hs0, hs1, i, hi0, hi1, rfl⟩ := (local_inField (exScalar_field 1)).1 hin
      rcases cc with _ | ⟨x, _ | ⟨y, cc⟩⟩ <;> simp [exScalar, InBox] at hcc hs1 hi1
      obtain rfl : x = 0 := by omega
      obtain rfl : s = 0 := by omega
      obtain rfl : i = 0 := by omega
      rfl⟩

/-- Two processes write their pixels (1 and 2 of the domain), one process with all four pixels reads. -/
example : ∃ fv' buf'', Var.writeAllLocal 1 0 0 ([exRankA, exRankB].map fun r => (r.v, r.marks, r.buf))
      ⟨fileShape (exScalarVar 1).dims, .double, fun _ => 0⟩ = .ok fv' ∧
    (exScalarVar 2).readLocal 1 0 0 [-1, 0, 1, -1] 1 fv' (fun a => if 0 ≤ a ∧ a < 2 then some 0 else none) =
      .ok buf'' ∧
    Holds (exScalar 2) buf'' (atPixels [1, 2] fun cc s p => exScalarVal cc s p) := by
  refine C37_redistribute_partial (G := Int) (vname := "c") (hist := none) (total := 2) [exRankA, exRankB]
    (by simp) (fr := 0) (M := exScalarEntry) (size' := 4) (coord' := fun p => p) (lname' := "inc") (marks0 := [])
    (val' := fun _ _ _ => 0) ?_ ?_ (by decide) (by decide) rfl (by decide) ?_ ?_ (exScalar_field 2) (Or.inl rfl)
    (by decide +kernel) (by simp [exRankA, exRankB, exScalar]) ?_ ?_ (by decide) (by decide) (by decide) ?_ ?_ ?_
  · simp [exRankA_ready, exRankB_ready]
  · simp [LocalRank.Apart, exRankA, exRankB]
  · simp only [List.mem_cons, List.not_mem_nil, or_false]
    rintro r (rfl | rfl) <;> rfl
  · intro r hr p hp
    simp only [List.mem_cons, List.not_mem_nil, or_false] at hr
    rcases hr with rfl | rfl <;> simp only [exRankA, exRankB] at hp <;>
      (have : p = 0 ∨ p = 1 := by omega) <;> rcases this with rfl | rfl <;> decide
  · simp [exRankA, exRankB, exScalar]
  · simp [exRankA, exRankB, exScalar]
  · intro p hp
    by_cases h : p < 2
    · exact ⟨exRankA, by simp, p, by simpa [exRankA] using h, rfl⟩
    · exact ⟨exRankB, by simp, p - 2, by simp only [exRankB]; omega, by simp only [exRankB]; omega⟩
  · intro p hp
    simp only [List.mem_cons, List.not_mem_nil, or_false, exists_eq_or_imp, exists_eq_left, exRankA, exRankB]
    omega
  · refine ⟨[1, 1, 1], by decide, ?_⟩
    intro cc s g hin
    obtain ⟨hcc, hs0, hs1, i, hi0, hi1, rfl⟩ := (local_inField (exScalar_field 2)).1 hin
    rcases cc with _ | ⟨x, _ | ⟨y, cc⟩⟩ <;> simp [exScalar, InBox] at hcc hs1 hi1
    obtain rfl : x = 0 := by omega
    obtain rfl : s = 0 := by omega
    have : memPos (exScalar 2) [1, 1, 1] [0] 0 [i] = i := by
      simp [memPos, exScalar, relCoord, dot]
    rw [this]
    exact if_pos ⟨hi0, hi1⟩

/-! ### The entries of the pixels -/

/-- **C37** (part) The entries of the pixels are one hidden variable of the whole domain.  Every process writes
those of its subdomain; a process that reads, with any decomposition, has afterwards for each pixel of
its subdomain the entry that was written for this pixel of the domain. -/
theorem C37_entries {lname : String} (ws : List (Rank Int))
    (hr : ∀ r ∈ ws, r.Ready lname true none) (hsame : ∀ r ∈ ws, ∀ r' ∈ ws, SameField r.f r'.f)
    (hdis : ws.Pairwise Disjoint) {dom : List Int}
    (hcov : ∀ g, InBox dom g → ∃ r ∈ ws, InBoxAt r.f.layout.pixShape r.f.loc g) {M : List Int → Int}
    (hval : ∀ r ∈ ws, ∀ g, InBoxAt r.f.layout.pixShape r.f.loc g → ∀ cc s, r.val cc s g = M g)
    {nb nb' frame frame' fr numrecs : Int} (hfr : varFrame nb frame = .ok fr)
    (hfr' : varFrame nb' frame' = .ok fr) (hn : fr < numrecs)
    {fv : FileVar Int} (hsh : ∀ r ∈ ws, fv.form = r.v.form)
    {reader : Rank Int} (hread : reader.Ready lname true none) (hrs : ∀ r ∈ ws, SameField r.f reader.f)
    (hrd : reader.f.nbDomain = dom) (hne : ws ≠ []) :
    ∃ fv' buf', Var.writeAll nb frame 0 (ws.map fun r => (r.v, r.buf)) fv = .ok fv' ∧
      reader.v.readGlobal nb' frame' 0 numrecs fv' reader.buf = .ok buf' ∧
      Holds reader.f buf' fun _ _ g => M g :=
  C36_round_trip ws hr hsame hdis hcov (fun r h cc s g hin => hval r h g hin.2.2.2 cc s) hfr hfr' rfl hn hsh
    hread hrs hrd hne

/-- The entries of the pixels of a subdomain. -/
def exEntries : IoField :=
  ⟨"inclusion", "pixel", ⟨.colMajor, [1], 1, [2, 3], [1, 2], 6⟩, 6, true, [4, 3], [2, 0], .index⟩

/-- The hypotheses on a process are met: the hidden variable can be registered and has no frames. -/
example : GlobalField exEntries ∧ exEntries.layout.nbSub = 1 ∧
    registerGlobalVar "inclusion" exEntries true none [0, 0, 0] =
      .ok (⟨"inclusion", exEntries, none, [⟨"tensor_dim__inclusion-0", 1⟩, ⟨"nx", 4⟩, ⟨"ny", 3⟩], true, ""⟩,
        [4, 3, 0]) :=
  ⟨⟨by decide, by decide, by decide, by decide, rfl, by decide, by decide, addressing_acc [2, 3]⟩, rfl,
    by decide +kernel⟩

end Verif.Props
