import Verif.Props.FileRegister
import Verif.Props.NetCDF
/-
C83: types of elements in files.
-/
namespace Verif.Props
open Verif Verif.Ccoord Verif.Layout Verif.RawMemory Verif.FileIO Verif.NetCDF

variable {α : Type}

/-! ## C83 -/

/-- **C83** Whatever a program registers, in which mode, and whichever calls are rejected: no variable is registered for
a complex field. -/
theorem C83_no_complex (mode : OpenMode) (fileDims : List Dim) (fileVars : List String) (numrecs : Int)
    (ops : List RegOp) : ∀ v ∈ ((Reg.opened mode fileDims fileVars numrecs).run ops).2.vars,
      v.1.field.ty ≠ .complex := fun v hv =>
  (run_grows _ ops).real (by simp [Reg.opened]) v.1 (List.mem_map_of_mem hv)

/-- **C83** A call that registers a collection with a complex field (with default arguments, in any mode and after any
calls) does not succeed, unless the field has the name of a field of a state field that is registered. -/
theorem C83_complex_rejected (s : Reg) (c : IoColl) (hf : (c.fields.map IoField.name).Nodup)
    (hst : (c.states.map StateGroup.pre).Nodup) {x : String × IoField × Option Nat} (hx : x ∈ c.toStore)
    (hc : x.2.1.ty = .complex) (hs : x.1 ∉ s.stateNames) :
    (s.register c ["REGISTER_ALL_FIELDS"] ["REGISTER_ALL_STATE_FIELDS"]).1 ≠ .ok () := by
  apply register_complex
  rcases List.mem_append.1 hx with h | h
  · obtain ⟨g, hg, rfl⟩ := List.mem_map.1 h
    refine Or.inl ⟨g.pre, List.mem_map_of_mem hg, g, ?_, hc⟩
    rw [IoColl.getState]
    have : c.states.find? (fun g' => g'.pre = g.pre) = some g := find_nodup StateGroup.pre hst hg
    rw [this]
  · obtain ⟨f, hf', rfl⟩ := List.mem_map.1 h
    obtain ⟨h1, h2⟩ := List.mem_filter.1 hf'
    refine Or.inr ⟨f.name, List.mem_map_of_mem h1, ?_, f, ?_, hc⟩
    · rw [List.mem_append]
      rintro (h | h)
      · exact hs h
      · exact absurd h (by simpa using h2)
    · rw [IoColl.getField]
      have : c.fields.find? (fun f' => f'.name = f.name) = some f := find_nodup IoField.name hf h1
      rw [this]

/-- **C83** The exception is a `FileIOError`, for fields of both kinds of collections. -/
theorem C83_complex_error (vname : String) (f : IoField) (hidden : Bool) (hist : Option Nat) (grid : List Int)
    (total : Int) (lname : String) (marks : List Int) (hc : f.ty = .complex) (hdim : f.nbDomain.length ≤ 3)
    (hgl : grid.length = 3) :
    registerGlobalVar vname f hidden hist grid = .throw .fileIOError ∧
      registerLocalVar vname f hist total lname marks = .throw .fileIOError := by
  constructor
  · by_cases hg : ∀ p ∈ List.zip grid f.nbDomain, p.1 = 0 ∨ p.1 = p.2
    · rw [registerGlobalVar, globalDims, gridDims_ok (names := gridNames) hdim (by omega) hg, hc]
      rfl
    · push Not at hg
      exact C35_other_grid vname f hidden hist hdim hgl hg
  · rw [registerLocalVar, hc]
    rfl

/-- A collection with a complex vector field. -/
def exWave : IoColl :=
  ⟨"", true, [{ exBlock "wave" "pixel" [3] 1 with ty := .complex }], [], .global [4, 3] [2, 3] [2, 0]⟩

/-- The hypotheses are met, also after other calls. -/
example :
    let s := ((Reg.created .write).run (registerAll [exBulk, exIncl])).2
    (exWave.fields.map IoField.name).Nodup ∧ (exWave.states.map StateGroup.pre).Nodup ∧
      ("wave", { exBlock "wave" "pixel" [3] 1 with ty := .complex }, none) ∈ exWave.toStore ∧ "wave" ∉ s.stateNames ∧
      (s.register exWave ["REGISTER_ALL_FIELDS"] ["REGISTER_ALL_STATE_FIELDS"]).1 = .throw .fileIOError := by
  decide +kernel

/-- **C83** The dimensions of a rejected complex field stay behind: a real field with its name and another number of
components can then not be registered. -/
theorem C83_left_behind :
    let real : IoColl := ⟨"", true, [exBlock "wave" "pixel" [2] 1], [], .global [4, 3] [2, 3] [2, 0]⟩
    ((Reg.created .write).run [.register real ["wave"] []]).1 = [.ok ()] ∧
    ((Reg.created .write).run [.register exWave ["wave"] [], .register real ["wave"] []]).1 =
      [.throw .fileIOError, .throw .fileIOError] := by
  decide +kernel

/-- **C83** Different types of elements have different types in the file. -/
theorem C83_types {t t' : Collection.ElemType} {n n' : NetCDFAtt.NcType} (h : ncTypeOf t = .ok n)
    (h' : ncTypeOf t' = .ok n') : n = n' ↔ t = t' := by
  cases t <;> cases t' <;> cases h <;> cases h' <;> simp

theorem dataType_of {v : Var} {f : IoField} (hf : v.field = f) {t : NetCDFAtt.NcType} (ht : ncTypeOf f.ty = .ok t) :
    v.dataType = t := by
  rw [Var.dataType, hf, ht]

/-- Reading would succeed if the type were right, but it is not. -/
theorem readGlobal_otherType {v : Var} {nb frame numrecs : Int} {k : Nat} {fv : FileVar α} {buf : Mem α}
    {t : NetCDFAtt.NcType} {b : Mem α} (hok : v.readGlobal nb frame k numrecs { fv with ty := t } buf = .ok b)
    (hty : ncTypeOf v.field.ty ≠ .ok fv.ty) : v.readGlobal nb frame k numrecs fv buf = .ub := by
  unfold Var.readGlobal at hok ⊢
  obtain ⟨a1, h1, hok⟩ := Res.bind_eq_ok.1 hok
  obtain ⟨a2, h2, hok⟩ := Res.bind_eq_ok.1 hok
  obtain ⟨a3, h3, hok⟩ := Res.bind_eq_ok.1 hok
  obtain ⟨a4, h4, hok⟩ := Res.bind_eq_ok.1 hok
  obtain ⟨a5, h5, hok⟩ := Res.bind_eq_ok.1 hok
  rw [h1, Res.ok_bind, h2, Res.ok_bind, h3, Res.ok_bind, h4, Res.ok_bind, h5, Res.ok_bind, Var.sameType, if_neg hty]
  rfl

theorem writeGlobal_otherType {v : Var} {nb frame : Int} {k : Nat} {fv fv' : FileVar α} {buf : Mem α}
    {t : NetCDFAtt.NcType} (hok : v.writeGlobal nb frame k buf { fv with ty := t } = .ok fv')
    (hty : ncTypeOf v.field.ty ≠ .ok fv.ty) : v.writeGlobal nb frame k buf fv = .ub := by
  unfold Var.writeGlobal at hok ⊢
  obtain ⟨a1, h1, hok⟩ := Res.bind_eq_ok.1 hok
  obtain ⟨a2, h2, hok⟩ := Res.bind_eq_ok.1 hok
  obtain ⟨a3, h3, hok⟩ := Res.bind_eq_ok.1 hok
  obtain ⟨a4, h4, hok⟩ := Res.bind_eq_ok.1 hok
  obtain ⟨a5, h5, hok⟩ := Res.bind_eq_ok.1 hok
  rw [h1, Res.ok_bind, h2, Res.ok_bind, h3, Res.ok_bind, h4, Res.ok_bind, h5, Res.ok_bind, Var.sameType, if_neg hty]
  rfl

/-- The full statement: a program whose collections are accepted for a file has fields of the types of the variables in
the file. -/
def C83_statement : Prop :=
  ∀ (dom dom' : List Int × List Int × List Int) (cs cs' : List IoColl) (mode mode' : OpenMode) (numrecs : Int),
    CollsOk dom cs → CollsOk dom' cs' → (mode = .write ∨ mode = .overwrite) → (mode' = .read ∨ mode' = .append) →
    let file := ((Reg.created mode).run (registerAll cs)).2
    let r := (Reg.opened mode' file.fileDims file.fileVars numrecs).run (registerAll cs')
    (∀ o ∈ r.1, o = .ok ()) →
      ∀ v ∈ file.vars, ∀ v' ∈ r.2.vars, v'.1.name = v.1.name → v'.1.dataType = v.1.dataType

/-- The collection of a reader that takes the stress for integers. -/
def exInts : IoColl :=
  ⟨"", true, [{ exAll "stress" "quad" [2, 2] 2 with ty := .int }], [], .global [4, 3] [4, 3] [0, 0]⟩

theorem exInts_ok : CollsOk exRegDom' [exInts] := by
  refine ⟨by decide, by decide, by decide, ⟨exInts, [], rfl, rfl⟩, ?_, by decide +kernel, by decide +kernel⟩
  intro c hc
  rw [List.mem_singleton] at hc
  subst hc
  refine ⟨rfl, by decide +kernel, by decide +kernel, ?_, by intro _ _ _ h; cases h⟩
  intro nb sh loc h x hx
  have : x = ("stress", { exAll "stress" "quad" [2, 2] 2 with ty := .int }, none) := by
    simpa [exInts, IoColl.toStore, IoColl.plain, IoColl.subs, exAll] using hx
  subst this
  have hg := exAll_field (name := "stress") (tag := "quad") (comps := [2, 2]) (nbSub := 2) (by decide) (by decide)
    (by decide)
  exact ⟨⟨hg.order, hg.comps_pos, hg.comps_len, hg.sub_pos, hg.is_global, hg.dom_pos, hg.inside, hg.addressing⟩, rfl,
    ⟨by decide, fun h => absurd h (by decide), fun _ => by decide +kernel, fun _ => by decide +kernel⟩⟩

/-- **C83** does not hold: integers are accepted for a variable with real numbers. -/
theorem C83_false : ¬ C83_statement := by
  intro h
  have h1 := h exRegDom exRegDom' [exBulk, exIncl] [exInts] .write .read 5 exColls exInts_ok (Or.inl rfl) (Or.inl rfl)
    (by decide +kernel)
  exact absurd h1 (by decide +kernel)

/-- **C83** The part that holds, for global fields: after writing, a field on the same domain with the same components
and sub-points gets the values if it has the type of the field written.  Otherwise elements of one type are taken
for elements of another, without an exception; the same is true for writing with the other field. -/
theorem C83_round_trip_partial {v v' : Var} {vname : String} {f f' : IoField} {hist : Option Nat}
    {grid grid' grid2 grid2' : List Int} (hf : GlobalField f) (hf' : GlobalField f')
    (hreg : registerGlobalVar vname f false hist grid = .ok (v, grid'))
    (hreg' : registerGlobalVar vname f' false hist grid2 = .ok (v', grid2'))
    (hc : f.layout.comps = f'.layout.comps) (hsub : f.layout.nbSub = f'.layout.nbSub)
    (hdom : f.nbDomain = f'.nbDomain)
    {nb nb' frame frame' fr numrecs : Int} {k : Nat} (hfr : varFrame nb frame = .ok fr)
    (hfr' : varFrame nb' frame' = .ok fr) (hk : HistIdx k hist) (hn : fr < numrecs)
    {buf buf' : Mem α} {val val' : List Int → Int → List Int → α} (hb : Holds f buf val)
    (hb' : Holds f' buf' val') {fv : FileVar α} (hsh : fv.form = v.form) :
    ∃ fv', v.writeGlobal nb frame k buf fv = .ok fv' ∧
      (f.ty = f'.ty → ∃ buf'' val'', v'.readGlobal nb' frame' k numrecs fv' buf' = .ok buf'' ∧ Holds f' buf'' val'' ∧
        ∀ cc s g, InField f cc s g → InField f' cc s g → val'' cc s g = val cc s g) ∧
      (f.ty ≠ f'.ty → v'.readGlobal nb' frame' k numrecs fv' buf' = .ub ∧
        v'.writeGlobal nb' frame' k buf' fv' = .ub) := by
  obtain ⟨fv', h1, h2, -⟩ := C35_write hf (by simp) hreg hfr hk hb hsh
  refine ⟨fv', h1, fun hty => ?_, fun hne => ?_⟩
  · obtain ⟨fw, buf'', val'', g1, g2, g3, g4⟩ := C35_round_trip hf hf' (by simp) (by simp) hreg hreg'
      ⟨hty, hc, hsub, hdom⟩ hfr hfr' hk hn hb hb' hsh
    rw [h1] at g1
    cases g1
    exact ⟨buf'', val'', g2, g3, g4⟩
  · obtain ⟨hv, hs, hg⟩ := registered hf (by simp) hreg
    obtain ⟨hv', hs', hg'⟩ := registered hf' (by simp) hreg'
    obtain ⟨t, ht⟩ := ncTypeOf_of_ne hv.ty
    obtain ⟨t', ht'⟩ := ncTypeOf_of_ne hv'.ty
    have hfv : fv'.ty = t := by
      have := congrArg Prod.snd (h2.trans hsh)
      exact this.trans (dataType_of hv.field ht)
    have hbad : ncTypeOf v'.field.ty ≠ .ok fv'.ty := by
      rw [hv'.field, ht', hfv]
      intro e
      cases e
      exact hne ((C83_types ht ht').1 rfl)
    -- the same variable with the type of the reader
    have hform : ({ fv' with ty := t' } : FileVar α).form = v'.form := by
      have e := form_congr hv hs hg (v' := { v' with field := { f' with ty := f.ty } }) (f' := { f' with ty := f.ty })
        ⟨rfl, hv'.hist_eq, hv'.dims, hv.ty⟩ ⟨hs'.order, hs'.comps_pos, hs'.comps_len, hs'.sub_pos, hs'.sub_scalar,
          hs'.clean_name, hs'.clean_tag⟩ ⟨hg'.is_global, hg'.dim, hg'.dom_pos, hg'.inside, hg'.addressing⟩
        ⟨rfl, hc, hsub, hdom⟩
      have e1 : fv'.shape = fileShape v'.dims := congrArg Prod.fst ((h2.trans hsh).trans e)
      have e2 : v'.dataType = t' := dataType_of hv'.field ht'
      rw [Var.form, e2, ← e1]
      rfl
    obtain ⟨b, k1, -⟩ := C35_read hf' (by simp) hreg' hfr' hk hn hb' hform
    obtain ⟨fw, k2, -⟩ := C35_write hf' (by simp) hreg' hfr' hk hb' hform
    exact ⟨readGlobal_otherType k1 hbad, writeGlobal_otherType k2 hbad⟩

/-- The hypotheses about the fields are met by the fields of the examples of C35, with the same type and with another
one. -/
example : (∃ v g, registerGlobalVar "stress" exLeft false none [0, 0, 0] = .ok (v, g)) ∧
    (∃ v g, registerGlobalVar "stress" exWhole false none [0, 0, 0] = .ok (v, g)) ∧
    (∃ v g, registerGlobalVar "stress" { exWhole with ty := .uint } false none [0, 0, 0] = .ok (v, g)) ∧
    exLeft.ty = exWhole.ty ∧ exLeft.layout.comps = exWhole.layout.comps ∧ exLeft.layout.nbSub = exWhole.layout.nbSub ∧
    exLeft.nbDomain = exWhole.nbDomain :=
  ⟨⟨_, _, exLeft_registered⟩, ⟨_, _, exWhole_registered⟩, ⟨⟨"stress", { exWhole with ty := .uint }, none, exDims, false, ""⟩, [4, 3, 0],
    by decide +kernel⟩, by decide⟩

end Verif.Props
