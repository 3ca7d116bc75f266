import Verif.Lemmas.FileRegisterAll
import Verif.Lemmas.FileRegisterNames
import Verif.Lemmas.Address
/-
C64, C65: registration of collections in a file.
-/
namespace Verif.Props
open Verif Verif.Ccoord Verif.Layout Verif.Layout.FieldLayout Verif.RawMemory Verif.NetCDF

/-! ## C64 -/

section
variable {dom dom' : List Int × List Int × List Int} {cs cs' : List IoColl}

theorem known_frame (dom : List Int) (cs : List IoColl) : dimsOf dom cs ⟨"frame", 0⟩ := .frame

theorem run_writing (hcs : CollsOk dom cs) {pre rest : List IoColl} (h : pre ++ rest = cs) {s : Reg}
    (hs : Writing (dimsOf dom.1 cs) dom pre s) :
    (∀ o ∈ (s.run (registerAll rest)).1, o = .ok ()) ∧
      Writing (dimsOf dom.1 cs) dom cs (s.run (registerAll rest)).2 := by
  induction rest generalizing pre s with
  | nil => rw [List.append_nil] at h; exact ⟨by simp [registerAll, Reg.run], h ▸ hs⟩
  | cons c rest ih =>
    obtain ⟨h1, h2⟩ := register_writing (fun d e => KnownDim.coherent) (fun d hd => hd.size_zero) (h ▸ hcs)
      (collVars_known hcs (h ▸ by simp)) hs
    obtain ⟨h3, h4⟩ := ih (by simpa using h) h2
    refine ⟨fun o ho => ?_, h4⟩
    rcases List.mem_cons.1 ho with rfl | ho
    · exact h1
    · exact h3 o ho

theorem created_writing (dom : List Int × List Int × List Int) (cs : List IoColl) {mode : OpenMode} (hm : mode = .write ∨ mode = .overwrite) :
    Writing (dimsOf dom.1 cs) dom [] (Reg.created mode) :=
  ⟨⟨rfl, rfl, rfl, by simp, fun _ => rfl, gridFor_zero _, by simp, by
      intro d hd
      simp only [Reg.created, Reg.opened, List.map_cons, List.map_nil, List.mem_singleton] at hd
      subst hd
      exact known_frame _ _, by simp [Reg.created, Reg.opened], rfl⟩, hm,
    ⟨[], [⟨"frame", 0⟩], rfl, rfl, by simp⟩, rfl, rfl, rfl, by simp [Reg.created, Reg.opened]⟩

theorem all_visible (dom : List Int × List Int × List Int) (cs : List IoColl) :
    ((cs.flatMap (collVars dom)).filter fun v => !v.hidden).map (fun v => (v.name, v.field, v.hist)) =
      cs.flatMap IoColl.toStore := by
  induction cs with
  | nil => rfl
  | cons c cs ih =>
    rw [List.flatMap_cons, List.filter_append, List.map_append, ih, List.flatMap_cons]
    congr 1
    unfold collVars
    cases c.domain with
    | global nb sh loc =>
      dsimp only
      rw [List.filter_eq_self.2 (by
        intro v hv
        obtain ⟨x, -, rfl⟩ := List.mem_map.1 hv
        rfl), List.map_map]
      exact List.map_id' _
    | isLocal ids total off =>
      dsimp only
      rw [List.filter_cons_of_neg (by simp [globalVar]), List.filter_eq_self.2 (by
        intro v hv
        obtain ⟨x, -, rfl⟩ := List.mem_map.1 hv
        rfl), List.map_map]
      exact List.map_id' _

/-- **C64** Collections that can be stored together, registered one after the other with the default arguments in a
new file: every call succeeds.  Afterwards the variables that `get_names` lists are those for the state fields and the
other fields, in this order, all variables and dimensions are defined in the file, and no name of a dimension is used
twice. -/
theorem C64_new (hcs : CollsOk dom cs) {mode : OpenMode} (hm : mode = .write ∨ mode = .overwrite) :
    let r := (Reg.created mode).run (registerAll cs)
    (∀ o ∈ r.1, o = .ok ()) ∧
    ((r.2.vars.map Prod.fst).filter fun v => !v.hidden).map (fun v => (v.name, v.field, v.hist)) =
      cs.flatMap IoColl.toStore ∧
    r.2.names = (cs.flatMap IoColl.toStore).map Prod.fst ∧
    r.2.fileVars = cs.flatMap IoColl.fileNames ∧ r.2.fileVars = r.2.vars.map (fun v => v.1.name) ∧
    (r.2.fileDims.map Dim.name).Nodup ∧
    (∀ v ∈ r.2.vars, v.2 = true ∧ ∀ d ∈ v.1.dims, d ∈ r.2.fileDims) := by
  intro r
  obtain ⟨h1, h2⟩ := run_writing hcs (pre := []) rfl (created_writing dom cs hm)
  have hv : r.2.vars.map Prod.fst = cs.flatMap (collVars dom) := by
    show (Reg.run _ _).2.vars.map _ = _
    rw [h2.vars]; simp [Function.comp_def]
  have hne : cs ≠ [] := by
    obtain ⟨c, rest, h, -⟩ := hcs.first
    rw [h]; simp
  obtain ⟨A, B, h3, h4, h5⟩ := h2.marked
  rw [h5 hne, List.map_nil, List.append_nil] at h3
  have hdims : r.2.dims.map Prod.fst = r.2.fileDims := by
    show (Reg.run _ _).2.dims.map _ = (Reg.run _ _).2.fileDims
    rw [h3, h4]; simp [Function.comp_def]
  refine ⟨h1, ?_, ?_, ?_, ?_, ?_, ?_⟩
  · rw [hv]; exact all_visible dom cs
  · rw [← all_visible dom cs, ← hv]
    show (r.2.vars.filter _).map _ = _
    rw [List.filter_map, List.map_map, List.map_map]
    rfl
  · show (Reg.run _ _).2.fileVars = _
    rw [h2.fileVars, all_names]
  · show (Reg.run _ _).2.fileVars = _
    rw [h2.fileVars, ← hv, List.map_map]
    rfl
  · rw [← hdims]
    exact List.Nodup.map_on (fun d hd e he h => (h2.known d hd).coherent (h2.known e he) h) h2.nodup
  · intro v hv'
    have hmem : v.1 ∈ cs.flatMap (collVars dom) := hv ▸ List.mem_map_of_mem hv'
    refine ⟨?_, fun d hd => hdims ▸ h2.has v.1 hmem d hd⟩
    have : v ∈ (cs.flatMap (collVars dom)).map (·, true) := by rw [← h2.vars]; exact hv'
    obtain ⟨w, -, rfl⟩ := List.mem_map.1 this
    rfl

/-- **C64** The variable for each field is the one that the theorems about single variables (C35, C37, C52, C62) speak
about. -/
theorem C64_variables (hcs : CollsOk dom cs) {mode : OpenMode} (hm : mode = .write ∨ mode = .overwrite) {c : IoColl}
    (hc : c ∈ cs) {vname : String} {f : IoField} {hist : Option Nat} (hx : (vname, f, hist) ∈ c.toStore) :
    ∃ v, (v, true) ∈ ((Reg.created mode).run (registerAll cs)).2.vars ∧
      match c.domain with
      | .global .. => ∃ grid grid', registerGlobalVar vname f false hist grid = .ok (v, grid')
      | .isLocal _ total _ => ∀ marks, registerLocalVar vname f hist total c.name marks = .ok v := by
  obtain ⟨h1, h2⟩ := run_writing hcs (pre := []) rfl (created_writing dom cs hm)
  have hmem : ∀ v ∈ collVars dom c, (v, true) ∈ ((Reg.created mode).run (registerAll cs)).2.vars := by
    intro v hv
    rw [h2.vars]
    exact List.mem_map.2 ⟨v, List.mem_flatMap.2 ⟨c, hc, hv⟩, rfl⟩
  have hok := hcs.each c hc
  cases hdom : c.domain with
  | global nb sh loc =>
    obtain ⟨k1, k2, k3⟩ := hok.global _ _ _ hdom _ hx
    refine ⟨globalVar vname f false hist, hmem _ ?_, [0, 0, 0], f.nbDomain ++ [0, 0, 0].drop f.nbDomain.length, ?_⟩
    · rw [collVars, hdom]
      exact List.mem_map.2 ⟨_, hx, rfl⟩
    · have h3 : f.nbDomain.length ≤ 3 := by rw [show f.nbDomain = dom.1 from k2]; exact hcs.dom_dim
      obtain ⟨t, hty⟩ := ncTypeOf_of_ne k3.real
      rw [registerGlobalVar, globalDims, gridDims_ok (names := gridNames) (grid := [0, 0, 0]) h3 h3 (gridFor_zero _).2, Res.ok_bind,
        Res.pure_eq, Res.ok_bind, hty, Res.ok_bind]
      have := checkGlobal_ok (v := globalVar vname f false hist) ⟨rfl, rfl, rfl, k3.real⟩ (k3.storable k1) (k1.onGrid h3)
      exact (congrArg (fun x => Bind.bind x _) this).trans rfl
  | isLocal ids total off =>
    obtain ⟨ht, -, -, hst⟩ := hok.isLocal _ _ _ hdom
    obtain ⟨k1, k2, k3⟩ := hst _ hx
    refine ⟨localVar vname f hist total c.name, hmem _ ?_, fun marks => ?_⟩
    · rw [collVars, hdom]
      exact List.mem_cons_of_mem _ (List.mem_map.2 ⟨_, hx, rfl⟩)
    · have hv : IsLocalVar (localVar vname f hist total c.name) vname f hist total :=
        ⟨rfl, rfl, by rw [localVar, localDims, if_pos (by omega)], k2, by omega, k3.real⟩
      have := checkLocal_ok k1 hv (k3.storableLocal k1) marks
      obtain ⟨t, hty⟩ := ncTypeOf_of_ne k3.real
      rw [registerLocalVar, hty, Res.ok_bind]
      exact (congrArg (fun x => Bind.bind x _) this).trans rfl

theorem sameStored_vars {c c' : IoColl} (hd : dom'.1 = dom.1) (hok : CollOk dom c) (hok' : CollOk dom' c')
    (h : SameStored c c') : ∀ v' ∈ collVars dom' c', ∃ v ∈ collVars dom c, v.name = v'.name ∧ v.dims = v'.dims := by
  intro v' hv'
  have hk := h.kind
  have hsub : ∀ {f f' : IoField}, f.tag = f'.tag → f.layout.comps = f'.layout.comps → f.layout.nbSub = f'.layout.nbSub →
      subPtDims f = subPtDims f' := by
    intro f f' h1 h2 h3
    rw [subPtDims, subPtDims, FieldLayout.nbComp, FieldLayout.nbComp, h1, h2, h3]
  cases hdom : c.domain with
  | global nb sh loc =>
    cases hdom' : c'.domain with
    | isLocal ids total off => rw [hdom, hdom'] at hk; exact hk.elim
    | global nb' sh' loc' =>
      rw [collVars, hdom'] at hv'
      obtain ⟨x', hx', rfl⟩ := List.mem_map.1 hv'
      obtain ⟨x, hx, e1, e2, e3, e4, e5⟩ := h.each x' hx'
      refine ⟨globalVar x.1 x.2.1 false x.2.2, by rw [collVars, hdom]; exact List.mem_map.2 ⟨x, hx, rfl⟩, e1, ?_⟩
      have g1 := (hok.global _ _ _ hdom x hx).2.1
      have g2 := (hok'.global _ _ _ hdom' x' hx').2.1
      simp only [globalVar]
      rw [e1, e2, e4, hsub e3 e4 e5, g1, g2, hd]
  | isLocal ids total off =>
    cases hdom' : c'.domain with
    | global nb sh loc => rw [hdom, hdom'] at hk; exact hk.elim
    | isLocal ids' total' off' =>
      rw [hdom, hdom'] at hk
      obtain ⟨ht, hn⟩ := hk
      rw [collVars, hdom'] at hv'
      rcases List.mem_cons.1 hv' with rfl | hv'
      · refine ⟨globalVar c.name (pixelField c.name dom) true none, by rw [collVars, hdom]; simp, hn, ?_⟩
        simp only [globalVar, pixelField, hn, hd, subPtDims, FieldLayout.nbComp]
      · obtain ⟨x', hx', rfl⟩ := List.mem_map.1 hv'
        obtain ⟨x, hx, e1, e2, e3, e4, e5⟩ := h.each x' hx'
        refine ⟨localVar x.1 x.2.1 x.2.2 total c.name, by
          rw [collVars, hdom]; exact List.mem_cons_of_mem _ (List.mem_map.2 ⟨x, hx, rfl⟩), e1, ?_⟩
        simp only [localVar, localDims]
        rw [e1, e2, e4, hsub e3 e4 e5, ht]

theorem run_reading {K : Dim → Prop} (hcoh : ∀ d e, K d → K e → d.name = e.name → d = e) {file : List Dim}
    {fileVars : List String} {numrecs : Int} (hin : ∀ d, K d → d.name ∈ file.map Dim.name) (hcs : CollsOk dom cs)
    (hK : ∀ c ∈ cs, ∀ v ∈ collVars dom c, ∀ d ∈ v.dims, K d)
    (hfile : ∀ c ∈ cs, ∀ v ∈ collVars dom c, v.name ∈ fileVars) {pre rest : List IoColl} (h : pre ++ rest = cs) {s : Reg}
    (hs : Reading K dom file fileVars numrecs pre s) :
    (∀ o ∈ (s.run (registerAll rest)).1, o = .ok ()) ∧
      Reading K dom file fileVars numrecs cs (s.run (registerAll rest)).2 := by
  induction rest generalizing pre s with
  | nil => rw [List.append_nil] at h; exact ⟨by simp [registerAll, Reg.run], h ▸ hs⟩
  | cons c rest ih =>
    obtain ⟨h1, h2⟩ := register_reading hcoh hin (h ▸ hcs) (hK c (h ▸ by simp)) (by
      intro v hv
      obtain ⟨x, hx, hxv⟩ := List.mem_flatMap.1 hv
      refine hfile x (h ▸ ?_) v hxv
      rcases List.mem_append.1 hx with hx | hx
      · exact List.mem_append_left _ hx
      · simp [List.mem_singleton.1 hx]) hs
    obtain ⟨h3, h4⟩ := ih (by simpa using h) h2
    refine ⟨fun o ho => ?_, h4⟩
    rcases List.mem_cons.1 ho with rfl | ho
    · exact h1
    · exact h3 o ho

theorem run_again (hcs : CollsOk dom cs) {mode : OpenMode} (hm : mode = .write ∨ mode = .overwrite)
    (hcs' : CollsOk dom' cs') (hd : dom'.1 = dom.1) (hsame : ∀ c' ∈ cs', ∃ c ∈ cs, SameStored c c')
    {mode' : OpenMode} (hm' : mode' = .read ∨ mode' = .append) (numrecs : Int) :
    let file := ((Reg.created mode).run (registerAll cs)).2
    let r := (Reg.opened mode' file.fileDims file.fileVars numrecs).run (registerAll cs')
    (∀ o ∈ r.1, o = .ok ()) ∧ ∃ K, Reading K dom' file.fileDims file.fileVars numrecs cs' r.2 := by
  intro file r
  obtain ⟨-, h2⟩ := run_writing hcs (pre := []) rfl (created_writing dom cs hm)
  obtain ⟨-, -, -, k4, -, -, k7⟩ := C64_new hcs hm
  have hdims : file.dims.map Prod.fst = file.fileDims := by
    obtain ⟨A, B, h3, h4, h5⟩ := h2.marked
    have hne : cs ≠ [] := by
      obtain ⟨c, rest, h, -⟩ := hcs.first
      rw [h]; simp
    rw [h5 hne, List.map_nil, List.append_nil] at h3
    show (Reg.run _ _).2.dims.map _ = (Reg.run _ _).2.fileDims
    rw [h3, h4]; simp [Function.comp_def]
  have hvin : ∀ c' ∈ cs', ∀ v' ∈ collVars dom' c', v'.name ∈ file.fileVars ∧ ∀ d ∈ v'.dims, d ∈ file.fileDims := by
    intro c' hc' v' hv'
    obtain ⟨c, hc, hs⟩ := hsame c' hc'
    obtain ⟨v, hv, e1, e2⟩ := sameStored_vars hd (hcs.each c hc) (hcs'.each c' hc') hs v' hv'
    have hmem : v ∈ cs.flatMap (collVars dom) := List.mem_flatMap.2 ⟨c, hc, hv⟩
    refine ⟨?_, ?_⟩
    · rw [show file.fileVars = _ from h2.fileVars, ← e1]
      exact List.mem_map_of_mem hmem
    · intro d hd'
      rw [← hdims]
      exact h2.has v hmem d (e2 ▸ hd')
  have hfr : ⟨"frame", 0⟩ ∈ file.fileDims := hdims ▸ h2.frame
  obtain ⟨h5, h6⟩ := run_reading (K := fun d => dimsOf dom.1 cs d ∧ d ∈ file.fileDims) (dom := dom')
    (file := file.fileDims) (fileVars := file.fileVars) (numrecs := numrecs)
    (fun d e hd he => hd.1.coherent he.1) (fun d hd => List.mem_map_of_mem hd.2) hcs'
    (fun c' hc' v' hv' d hd' => by
      have hmem := (hvin c' hc' v' hv').2 d hd'
      exact ⟨h2.known d (hdims ▸ hmem), hmem⟩)
    (fun c' hc' v' hv' => (hvin c' hc' v' hv').1) (pre := []) rfl
    (s := Reg.opened mode' file.fileDims file.fileVars numrecs)
    ⟨⟨rfl, rfl, rfl, by simp, fun _ => rfl, gridFor_zero _, by simp, by
      intro d hd'
      simp only [Reg.opened, List.map_cons, List.map_nil, List.mem_singleton] at hd'
      subst hd'
      exact ⟨known_frame _ _, hfr⟩, by simp [Reg.opened], rfl⟩, hm', rfl, rfl, rfl, rfl⟩
  exact ⟨h5, _, h6⟩

/-- **C64** The file can be opened again: any program that has collections for some or all of the stored variables can
register them, in any order that begins with a global collection, and the number of frames is the number of records. -/
theorem C64_again (hcs : CollsOk dom cs) {mode : OpenMode} (hm : mode = .write ∨ mode = .overwrite)
    (hcs' : CollsOk dom' cs') (hd : dom'.1 = dom.1) (hsame : ∀ c' ∈ cs', ∃ c ∈ cs, SameStored c c')
    {mode' : OpenMode} (hm' : mode' = .read ∨ mode' = .append) (numrecs : Int) :
    let file := ((Reg.created mode).run (registerAll cs)).2
    let r := (Reg.opened mode' file.fileDims file.fileVars numrecs).run (registerAll cs')
    (∀ o ∈ r.1, o = .ok ()) ∧
    ((r.2.vars.map Prod.fst).filter fun v => !v.hidden).map (fun v => (v.name, v.field, v.hist)) =
      cs'.flatMap IoColl.toStore ∧
    (∀ v ∈ r.2.vars, v.2 = true) ∧ r.2.nbFrames = numrecs ∧
    r.2.fileDims = file.fileDims ∧ r.2.fileVars = file.fileVars := by
  intro file r
  obtain ⟨h5, K, h6⟩ := run_again hcs hm hcs' hd hsame hm' numrecs
  refine ⟨h5, ?_, ?_, h6.nbFrames, h6.fileDims_eq, h6.fileVars_eq⟩
  · have hv : r.2.vars.map Prod.fst = cs'.flatMap (collVars dom') := by
      show (Reg.run _ _).2.vars.map _ = _
      rw [h6.vars]; simp [Function.comp_def]
    rw [hv]
    exact all_visible dom' cs'
  · intro v hv
    have : v ∈ (cs'.flatMap (collVars dom')).map (·, true) := by rw [← h6.vars]; exact hv
    obtain ⟨w, -, rfl⟩ := List.mem_map.1 this
    rfl

end

/-! ### The example: a program that writes with a part of the domain, and one that reads with all of it -/

/-- Fields on pixels 2 and 3 of the first direction of a domain with 4 × 3 pixels. -/
def exBlock (name tag : String) (comps : List Int) (nbSub : Int) : IoField :=
  ⟨name, tag, ⟨.colMajor, comps, nbSub, [2, 3], [1, 2], 6⟩, 6, true, [4, 3], [2, 0], .real⟩

/-- Fields on the whole domain. -/
def exAll (name tag : String) (comps : List Int) (nbSub : Int) : IoField :=
  ⟨name, tag, ⟨.rowMajor, comps, nbSub, [4, 3], [3, 1], 12⟩, 12, true, [4, 3], [0, 0], .real⟩

def exLoc (name tag : String) (comps : List Int) (nbSub n : Int) : IoField :=
  ⟨name, tag, ⟨.colMajor, comps, nbSub, [n], [1], n⟩, n, false, [], [0], .real⟩

theorem exBlock_in : Within [4, 3] [2, 3] [2, 0] := by decide

theorem exAll_in : Within [4, 3] [4, 3] [0, 0] := by decide

theorem exBlock_field {name tag : String} {comps : List Int} {nbSub : Int} (h1 : Pos comps)
    (h2 : comps.length ≤ 2147483647) (h3 : 0 < nbSub) : GlobalField (exBlock name tag comps nbSub) :=
  ⟨Or.inl rfl, h1, h2, h3, rfl, by simp [exBlock, Pos], exBlock_in, addressing_acc [2, 3]⟩

theorem exAll_field {name tag : String} {comps : List Int} {nbSub : Int} (h1 : Pos comps)
    (h2 : comps.length ≤ 2147483647) (h3 : 0 < nbSub) : GlobalField (exAll name tag comps nbSub) :=
  ⟨Or.inr rfl, h1, h2, h3, rfl, by simp [exAll, Pos], exAll_in, addressing_acc_reverse [4, 3]⟩

theorem exLoc_field {name tag : String} {comps : List Int} {nbSub n : Int} (h1 : Pos comps)
    (h2 : comps.length ≤ 2147483647) (h3 : 0 < nbSub) (h4 : 0 ≤ n) : LocalField (exLoc name tag comps nbSub n) n :=
  ⟨Or.inl rfl, h1, h2, h3, rfl, rfl, rfl, rfl, rfl, h4⟩

/-- The collections of the writer: a stress and a damage with one old value, and a strain on three pixels. -/
def exBulk : IoColl :=
  ⟨"", true, [exBlock "stress" "quad" [2, 2] 2, exBlock "damage, sub_field index 0" "pixel" [1] 1,
      exBlock "damage, sub_field index 1" "pixel" [1] 1],
    [⟨"damage", 1, ["damage, sub_field index 0", "damage, sub_field index 1"], exBlock "damage" "pixel" [1] 1⟩],
    .global [4, 3] [2, 3] [2, 0]⟩

def exIncl : IoColl := ⟨"inclusion", true, [exLoc "plastic" "quad" [2] 2 3], [], .isLocal [4, 1, 3] 10 7⟩

/-- The collections of the reader, which does not want the damage. -/
def exBulk' : IoColl := ⟨"", true, [exAll "stress" "quad" [2, 2] 2], [], .global [4, 3] [4, 3] [0, 0]⟩

def exIncl' : IoColl :=
  ⟨"inclusion", true, [exLoc "plastic" "quad" [2] 2 10], [], .isLocal [0, 1, 2, 3, 4, 5, 6, 7, 8, 9] 10 0⟩

def exRegDom : List Int × List Int × List Int := ([4, 3], [2, 3], [2, 0])
def exRegDom' : List Int × List Int × List Int := ([4, 3], [4, 3], [0, 0])

theorem exBulk_store : exBulk.toStore = [("damage", exBlock "damage" "pixel" [1] 1, some 1),
    ("stress", exBlock "stress" "quad" [2, 2] 2, none)] := by with_unfolding_all rfl

theorem exColls : CollsOk exRegDom [exBulk, exIncl] := by
  refine ⟨by decide, by decide, by decide, ⟨exBulk, [exIncl], rfl, rfl⟩, ?_, by decide +kernel, by decide +kernel⟩
  intro c hc
  simp only [List.mem_cons, List.not_mem_nil, or_false] at hc
  rcases hc with rfl | rfl
  · refine ⟨rfl, by decide +kernel, by decide +kernel, ?_, by intro _ _ _ h; cases h⟩
    intro nb sh loc h x hx
    rw [exBulk_store] at hx
    simp only [List.mem_cons, List.not_mem_nil, or_false] at hx
    rcases hx with rfl | rfl
    · exact ⟨exBlock_field (by decide) (by decide) (by decide), rfl,
        ⟨by decide, by decide, fun _ => by decide +kernel, fun h => absurd rfl h⟩⟩
    · exact ⟨exBlock_field (by decide) (by decide) (by decide), rfl,
        ⟨by decide, fun h => absurd h (by decide), fun _ => by decide +kernel, fun _ => by decide +kernel⟩⟩
  · refine ⟨rfl, by decide +kernel, by decide +kernel, (by intro _ _ _ h; cases h), ?_⟩
    intro ids total off h
    cases h
    refine ⟨by decide, by decide, by decide +kernel, ?_⟩
    intro x hx
    have : x = ("plastic", exLoc "plastic" "quad" [2] 2 3, none) := by simpa [exIncl, IoColl.toStore, IoColl.plain,
      IoColl.subs, exLoc] using hx
    subst this
    exact ⟨exLoc_field (by decide) (by decide) (by decide) (by decide), by decide +kernel,
      ⟨by decide, fun h => absurd h (by decide), fun _ => by decide +kernel, fun _ => by decide +kernel⟩⟩

theorem exColls' : CollsOk exRegDom' [exBulk', exIncl'] := by
  refine ⟨by decide, by decide, by decide, ⟨exBulk', [exIncl'], rfl, rfl⟩, ?_, by decide +kernel, by decide +kernel⟩
  intro c hc
  simp only [List.mem_cons, List.not_mem_nil, or_false] at hc
  rcases hc with rfl | rfl
  · refine ⟨rfl, by decide +kernel, by decide +kernel, ?_, by intro _ _ _ h; cases h⟩
    intro nb sh loc h x hx
    have : x = ("stress", exAll "stress" "quad" [2, 2] 2, none) := by simpa [exBulk', IoColl.toStore, IoColl.plain,
      IoColl.subs, exAll] using hx
    subst this
    exact ⟨exAll_field (by decide) (by decide) (by decide), rfl,
        ⟨by decide, fun h => absurd h (by decide), fun _ => by decide +kernel, fun _ => by decide +kernel⟩⟩
  · refine ⟨rfl, by decide +kernel, by decide +kernel, (by intro _ _ _ h; cases h), ?_⟩
    intro ids total off h
    cases h
    refine ⟨by decide, by decide, by decide +kernel, ?_⟩
    intro x hx
    have : x = ("plastic", exLoc "plastic" "quad" [2] 2 10, none) := by simpa [exIncl', IoColl.toStore, IoColl.plain,
      IoColl.subs, exLoc] using hx
    subst this
    exact ⟨exLoc_field (by decide) (by decide) (by decide) (by decide), by decide +kernel,
      ⟨by decide, fun h => absurd h (by decide), fun _ => by decide +kernel, fun _ => by decide +kernel⟩⟩

theorem exSameStored : ∀ c' ∈ [exBulk', exIncl'], ∃ c ∈ [exBulk, exIncl], SameStored c c' := by
  intro c' hc'
  simp only [List.mem_cons, List.not_mem_nil, or_false] at hc'
  rcases hc' with rfl | rfl
  · refine ⟨exBulk, by simp, trivial, ?_⟩
    intro x hx
    have : x = ("stress", exAll "stress" "quad" [2, 2] 2, none) := by simpa [exBulk', IoColl.toStore, IoColl.plain,
      IoColl.subs, exAll] using hx
    subst this
    refine ⟨("stress", exBlock "stress" "quad" [2, 2] 2, none), ?_, rfl, rfl, rfl, rfl, rfl⟩
    rw [exBulk_store]
    exact List.mem_cons_of_mem _ (List.mem_singleton.2 rfl)
  · refine ⟨exIncl, by simp, ⟨rfl, rfl⟩, ?_⟩
    intro x hx
    have : x = ("plastic", exLoc "plastic" "quad" [2] 2 10, none) := by simpa [exIncl', IoColl.toStore, IoColl.plain,
      IoColl.subs, exLoc] using hx
    subst this
    exact ⟨("plastic", exLoc "plastic" "quad" [2] 2 3, none), by
      simp [exIncl, IoColl.toStore, IoColl.plain, IoColl.subs, exLoc], rfl, rfl, rfl, rfl, rfl⟩

/-- The theorem on new files applies, and this is the file that it gives. -/
example :
    let r := (Reg.created .write).run (registerAll [exBulk, exIncl])
    CollsOk exRegDom [exBulk, exIncl] ∧ r.1 = [.ok (), .ok ()] ∧ r.2.names = ["damage", "stress", "plastic"] ∧
      r.2.fileVars = ["damage", "stress", "inclusion", "plastic"] ∧
      r.2.fileDims.map Dim.name = ["frame", "history_index__2", "tensor_dim__damage-0", "nx", "ny",
        "tensor_dim__stress-0", "tensor_dim__stress-1", "subpt__quad-2", "tensor_dim__inclusion-0",
        "tensor_dim__plastic-0", "pts__plastic"] := by
  exact ⟨exColls, by decide +kernel, by decide +kernel, by decide +kernel, by decide +kernel⟩

/-- The theorem on opening again applies, although the reader has another decomposition, another storage order and
fewer fields. -/
example :
    let file := ((Reg.created .write).run (registerAll [exBulk, exIncl])).2
    let r := (Reg.opened .read file.fileDims file.fileVars 5).run (registerAll [exBulk', exIncl'])
    (CollsOk exRegDom' [exBulk', exIncl'] ∧ exRegDom'.1 = exRegDom.1 ∧
      ∀ c' ∈ [exBulk', exIncl'], ∃ c ∈ [exBulk, exIncl], SameStored c c') ∧
    r.1 = [.ok (), .ok ()] ∧ r.2.names = ["stress", "plastic"] ∧ r.2.nbFrames = 5 := by
  exact ⟨⟨exColls', rfl, exSameStored⟩, by decide +kernel, by decide +kernel, by decide +kernel⟩

/-- The theorem on single variables applies to the damage and to the plastic strain. -/
example : ("damage", exBlock "damage" "pixel" [1] 1, some 1) ∈ exBulk.toStore ∧
    ("plastic", exLoc "plastic" "quad" [2] 2 3, none) ∈ exIncl.toStore :=
  ⟨exBulk_store ▸ List.mem_cons_self, by simp [exIncl, IoColl.toStore, IoColl.plain, IoColl.subs, exLoc]⟩

/-! ## C65 -/

/-- **C65** Whatever a program registers and whichever calls are rejected: the names that `get_names` lists are
distinct. -/
theorem C65_unique (mode : OpenMode) (fileDims : List Dim) (fileVars : List String) (numrecs : Int)
    (ops : List RegOp) : ((Reg.opened mode fileDims fileVars numrecs).run ops).2.names.Nodup :=
  (run_grows _ ops).nodup (by simp [Reg.names, Reg.opened])

/-- **C65** Variables that are registered stay registered, in their places, whichever calls follow. -/
theorem C65_kept (s : Reg) (ops : List RegOp) :
    ∃ new, (s.run ops).2.vars.map Prod.fst = s.vars.map Prod.fst ++ new :=
  (run_grows s ops).vars

/-- **C65** A name that is registered cannot be registered again by any later call, for no field or state field of
no collection. -/
theorem C65_taken (s : Reg) (ops : List RegOp) {n : String} (hn : n ∈ s.names) (c : IoColl)
    (fieldNames prefixes : List String) (h : n ∈ c.asked fieldNames prefixes) :
    ((s.run ops).2.register c fieldNames prefixes).1 ≠ .ok () :=
  register_taken ((run_grows s ops).mem hn) h

/-- The hypotheses are met after the calls of the example above, for a collection with two names. -/
example :
    let s := ((Reg.created .write).run (registerAll [exBulk, exIncl])).2
    "plastic" ∈ s.names ∧ "plastic" ∈ exIncl.asked ["REGISTER_ALL_FIELDS"] ["REGISTER_ALL_STATE_FIELDS"] ∧
      (s.register exIncl ["REGISTER_ALL_FIELDS"] []).1 = .throw .fieldCollectionError ∧
      (s.register exBulk ["stress"] []).1 = .throw .fileIOError := by
  exact ⟨by decide +kernel, by decide +kernel, by decide +kernel, by decide +kernel⟩

/-- The full statement: a call that throws changes nothing. -/
def C65_statement : Prop :=
  ∀ (mode : OpenMode) (fileDims : List Dim) (fileVars : List String) (numrecs : Int) (ops : List RegOp) (op : RegOp)
    (e : Err),
    let s := ((Reg.opened mode fileDims fileVars numrecs).run ops).2
    (s.step op).1 = .throw e → (s.step op).2 = s

/-- A collection with a scalar field on two sub-points, which cannot be stored. -/
def exScalars : IoColl := ⟨"", true, [exBlock "scalar" "quad" [1] 2], [], .global [4, 3] [2, 3] [2, 0]⟩

/-- **C65** does not hold: a variable that is rejected by the check stays registered. -/
theorem C65_false : ¬ C65_statement := by
  intro h
  have h1 := h .write [] [] 0 [] (.register exScalars ["scalar"] []) .fileIOError (by decide +kernel)
  have h2 := congrArg Reg.names h1
  exact absurd h2 (by decide +kernel)

/-- **C65** What follows from it: with the next successful registration the rejected variable is defined in the file,
its name is in use, and writing it reads outside the array of strides. -/
theorem C65_rejected_defined (buf : Mem Int) (data : List Int → Int) :
    let r := (Reg.created .write).run [.register exScalars ["scalar"] [],
      .register exBulk ["REGISTER_ALL_FIELDS"] ["REGISTER_ALL_STATE_FIELDS"]]
    r.1 = [.throw .fileIOError, .ok ()] ∧ "scalar" ∈ r.2.names ∧ "scalar" ∈ r.2.fileVars ∧
      ∃ v, (v, true) ∈ r.2.vars ∧ v.name = "scalar" ∧ 
        v.writeGlobal 1 0 0 buf ⟨fileShape v.dims, .double, data⟩ = .ub := by
  refine ⟨by decide +kernel, by decide +kernel, by decide +kernel,
    ⟨"scalar", exBlock "scalar" "quad" [1] 2, none, [⟨"frame", 0⟩, ⟨"tensor_dim__scalar-0", 1⟩,
      ⟨"subpt__quad-2", 2⟩, ⟨"nx", 4⟩, ⟨"ny", 3⟩], false, ""⟩, ?_, rfl, ?_⟩
  · decide +kernel
  · with_unfolding_all rfl

/-- **C65** A collection on another domain is rejected, but the dimensions of its first field are kept: a field with
this name and another number of components can then not be defined. -/
theorem C65_rejected_dimensions :
    let other : IoColl := ⟨"", true, [⟨"a", "pixel", ⟨.colMajor, [3], 1, [5, 5], [1, 5], 25⟩, 25, true, [5, 5], [0, 0], .real⟩],
      [], .global [5, 5] [5, 5] [0, 0]⟩
    let good : IoColl := ⟨"", true, [exBlock "a" "pixel" [2] 1], [], .global [4, 3] [2, 3] [2, 0]⟩
    ((Reg.created .write).run [.register exBulk ["stress"] [], .register good ["a"] []]).1 = [.ok (), .ok ()] ∧
    ((Reg.created .write).run [.register exBulk ["stress"] [], .register other ["a"] [], .register good ["a"] []]).1 =
      [.ok (), .throw .fileIOError, .throw .fileIOError] := by
  decide +kernel

/-- **C65** A field with the name of the sub-field of a state field of another collection is left out without an
error. -/
theorem C65_skipped :
    let other : IoColl := ⟨"", true, [exBlock "damage, sub_field index 0" "quad" [2, 2] 2], [],
      .global [4, 3] [2, 3] [2, 0]⟩
    ((Reg.created .write).run (registerAll [exBulk, other])).1 = [.ok (), .ok ()] ∧
    ((Reg.created .write).run (registerAll [exBulk, other])).2.names = ["damage", "stress"] := by
  decide +kernel

/-- **C65** A field with the name of a local collection becomes a hidden variable, which `get_names` does not list, and
cannot be defined, because the name is in use. -/
theorem C65_hidden :
    let other : IoColl := ⟨"", true, [exBlock "inclusion" "quad" [2, 2] 2], [], .global [4, 3] [2, 3] [2, 0]⟩
    ((Reg.created .write).run (registerAll [exBulk, exIncl, other])).1 = [.ok (), .ok (), .throw .fileIOError] ∧
    ((Reg.created .write).run (registerAll [exBulk, exIncl, other])).2.names = ["damage", "stress", "plastic"] := by
  decide +kernel

/-- **C65** A frame appended to an existing file before the first registration is lost. -/
theorem C65_append_before (file : List Dim) (fileVars : List String) (numrecs : Int) :
    (Reg.opened .append file fileVars numrecs).nbFrames = numrecs ∧
    ((Reg.opened .append file fileVars numrecs).step .appendFrame).2.nbFrames = numrecs + 1 ∧
    (⟨"frame", 0⟩ ∈ file → file.find? (fun e => e.name = "frame") = some ⟨"frame", 0⟩ →
      let empty : IoColl := ⟨"", true, [], [], .global [4, 3] [2, 3] [2, 0]⟩
      ((Reg.opened .append file fileVars numrecs).run [.appendFrame, .register empty [] []]).1 = [.ok (), .ok ()] ∧
      ((Reg.opened .append file fileVars numrecs).run [.appendFrame, .register empty [] []]).2.nbFrames = numrecs) := by
  refine ⟨rfl, rfl, fun hm hf => ?_⟩
  have hlen : ¬ file.length < 1 := by
    have := List.length_pos_of_mem hm
    omega
  simp [Reg.run, Reg.step, Reg.opened, Reg.register, Reg.registerGlobal, Reg.inquire, resolve, forEach, andThen,
    inquireDims, inquireVars, hf, hlen]

/-- **C65** The part that holds: a collection that is not initialised, a local collection before the first global one
or with the name of another local one, and a collection whose first name is in use are rejected without any
change. -/
theorem C65_rejected_partial (s : Reg) (c : IoColl) (fieldNames prefixes : List String)
    (h : c.initialised = false ∨
      (∃ ids total off, c.domain = .isLocal ids total off) ∧ (s.pixels = none ∨ c.name ∈ s.gfc.map Prod.fst) ∨
      (∃ nb shape loc, c.domain = .global nb shape loc) ∧ ∃ n rest, c.asked fieldNames prefixes = n :: rest ∧
        n ∈ s.names) :
    ∃ e, s.register c fieldNames prefixes = (.throw e, s) := by
  by_cases hi : c.initialised = true
  swap
  · exact ⟨.fileIOError, by rw [Reg.register, if_pos hi]⟩
  rcases h with h | ⟨⟨ids, total, off, hd⟩, h⟩ | ⟨⟨nb, sh, loc, hd⟩, n, rest, ha, hn⟩
  · exact absurd hi (by simp [h])
  · by_cases hp : s.pixels = none
    · exact ⟨.fileIOError, by simp only [Reg.register, hi, hd, Reg.registerLocal, hp, andThen]; simp⟩
    · obtain ⟨dom, hp'⟩ := Option.ne_none_iff_exists'.1 hp
      have hg := h.resolve_left hp
      exact ⟨.fieldCollectionError, by
        simp only [Reg.register, hi, hd, Reg.registerLocal, hp', andThen, if_pos hg]; simp⟩
  · refine ⟨.fileIOError, ?_⟩
    have key : s.registerGlobal c (nb, sh, loc) (resolve "REGISTER_ALL_FIELDS" (c.fields.map IoField.name) fieldNames)
        (resolve "REGISTER_ALL_STATE_FIELDS" (c.states.map StateGroup.pre) prefixes) = (.throw .fileIOError, s) := by
      have ha' : resolve "REGISTER_ALL_STATE_FIELDS" (c.states.map StateGroup.pre) prefixes ++
        resolve "REGISTER_ALL_FIELDS" (c.fields.map IoField.name) fieldNames = n :: rest := ha
      generalize resolve "REGISTER_ALL_STATE_FIELDS" (c.states.map StateGroup.pre) prefixes = ps at ha'
      generalize resolve "REGISTER_ALL_FIELDS" (c.fields.map IoField.name) fieldNames = fs at ha'
      cases ps with
      | cons p ps =>
        rw [List.cons_append, List.cons.injEq] at ha'
        simp only [Reg.registerGlobal, forEach, Reg.stateRound, ha'.1, if_pos hn, andThen]
      | nil =>
        rw [List.nil_append] at ha'
        simp only [Reg.registerGlobal, ha', forEach, Reg.fieldRound, if_pos hn, andThen]
    simp only [Reg.register, hi, hd, key, andThen]
    simp

/-- The three kinds of hypotheses are met: at the beginning of a file, and after the calls of the example above. -/
example :
    let s := ((Reg.created .write).run (registerAll [exBulk, exIncl])).2
    (Reg.created .write).pixels = none ∧ (∃ ids total off, exIncl.domain = .isLocal ids total off) ∧
      exIncl.name ∈ s.gfc.map Prod.fst ∧
      (∃ nb shape loc, exBulk.domain = .global nb shape loc) ∧
      ∃ n rest, exBulk.asked ["stress"] [] = n :: rest ∧ n ∈ s.names :=
  ⟨rfl, ⟨_, _, _, rfl⟩, by decide +kernel, ⟨_, _, _, rfl⟩, "stress", [], by decide +kernel, by decide +kernel⟩

end Verif.Props
