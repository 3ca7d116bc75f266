import Verif.Lemmas.FileRegister
/-
Registration of whole collections, and of lists of collections.
-/
namespace Verif.NetCDF
open Verif Verif.Ccoord Verif.Layout Verif.Layout.FieldLayout Verif.Props

theorem _root_.Verif.CanStore.storable {vname : String} {f : IoField} (h : CanStore vname f) (hf : GlobalField f) :
    StorableShape vname f :=
  ⟨hf.order, hf.comps_pos, hf.comps_len, hf.sub_pos, h.scalar, h.name, h.tag⟩

theorem _root_.Verif.CanStore.storableLocal {vname : String} {f : IoField} {n : Int} (h : CanStore vname f) (hf : LocalField f n) :
    StorableShape vname f :=
  ⟨hf.order, hf.comps_pos, hf.comps_len, hf.sub_pos, h.scalar, h.name, h.tag⟩

theorem _root_.Verif.GlobalField.onGrid {f : IoField} (hf : GlobalField f) (h : f.nbDomain.length ≤ 3) : OnGrid f :=
  ⟨hf.is_global, h, hf.dom_pos, hf.inside, hf.addressing⟩

theorem pixelField_storable {l : String} (dom : List Int × List Int × List Int) (h : Clean l) :
    StorableShape l (pixelField l dom) :=
  ⟨Or.inl rfl, by simp [pixelField, Pos], by simp [pixelField], by simp [pixelField], fun _ => rfl, fun _ => h,
    fun hn => absurd rfl hn⟩

theorem pixelField_onGrid {l : String} {dom : List Int × List Int × List Int} (h3 : dom.1.length ≤ 3)
    (hp : Pos dom.1) (hi : Within dom.1 dom.2.1 dom.2.2) : OnGrid (pixelField l dom) :=
  ⟨rfl, h3, hp, hi, by
    have := addressing_acc dom.2.1
    rw [accStrides_eq_colMajor, ← getSize_eq_prod] at this
    exact this⟩

/-- The variables of a collection. -/
def collVars (dom : List Int × List Int × List Int) (c : IoColl) : List Var :=
  match c.domain with
  | .global .. => c.toStore.map fun x => globalVar x.1 x.2.1 false x.2.2
  | .isLocal _ total _ => globalVar c.name (pixelField c.name dom) true none ::
      c.toStore.map fun x => localVar x.1 x.2.1 x.2.2 total c.name

/-- The name of the hidden variable of a local collection. -/
def hiddenNames (c : IoColl) : List String := match c.domain with | .global .. => [] | .isLocal .. => [c.name]

/-- The entries of the pixels of a local collection on this process. -/
def pixelMarks (mode : OpenMode) (dom : List Int × List Int × List Int) (ids : List Int) (off : Int) : List Int :=
  match (if mode = .write ∨ mode = .overwrite then markPixels (getSize dom.2.1).toNat off ids
    else .ok (List.replicate (getSize dom.2.1).toNat (-1 : Int))) with
  | .ok m => m
  | _ => []

/-- The entries of the collection in `GFC_local_pixels`. -/
def collMarks (mode : OpenMode) (dom : List Int × List Int × List Int) (c : IoColl) : List (String × List Int) :=
  match c.domain with
  | .global .. => []
  | .isLocal ids _ off => [(c.name, pixelMarks mode dom ids off)]

theorem collMarks_names (mode : OpenMode) (dom : List Int × List Int × List Int) (cs : List IoColl) :
    (cs.flatMap (collMarks mode dom)).map Prod.fst = cs.flatMap hiddenNames := by
  induction cs with
  | nil => rfl
  | cons c cs ih =>
    rw [List.flatMap_cons, List.map_append, ih, List.flatMap_cons]
    congr 1
    unfold collMarks hiddenNames
    cases c.domain <;> rfl

theorem fileNames_eq (c : IoColl) : c.fileNames = hiddenNames c ++ c.toStore.map Prod.fst := rfl

section
variable {K : Dim → Prop} {dom : List Int × List Int × List Int}

theorem Adds.set {s s' : Reg} {vs : List Var} {sn : List String} {d : List Int} (h : Adds K d s s' vs sn)
    (p : Option (List Int × List Int × List Int)) (g : List (String × List Int)) :
    Adds K d { s with pixels := p, gfc := g } { s' with pixels := p, gfc := g } vs sn :=
  ⟨h.vars, h.stateNames, h.dims, h.nodup, h.has, h.grid, h.mode, rfl, rfl, h.nbFrames, h.fileDims, h.fileVars,
    h.numrecs, h.order⟩

/-- A global collection. -/
theorem registerGlobal_adds {c : IoColl} {nb sh loc : List Int} (hc : CollOk dom c) (h3 : dom.1.length ≤ 3)
    (hdom : c.domain = .global nb sh loc) (hK : ∀ v ∈ collVars dom c, ∀ d ∈ v.dims, K d) {s : Reg}
    (hg : GridFor dom.1 s.grid) (hn : (s.names ++ c.toStore.map Prod.fst).Nodup)
    (hskip : ∀ n ∈ s.stateNames ++ c.subs, n ∉ s.names ++ c.toStore.map Prod.fst)
    (hgfc : ∀ n ∈ c.toStore.map Prod.fst, n ∉ s.gfc.map Prod.fst) (dm : List Int × List Int × List Int) :
    let r := s.registerGlobal c dm (c.fields.map IoField.name) (c.states.map StateGroup.pre)
    r.1 = .ok () ∧ r.2.pixels = some (s.pixels.getD dm) ∧ r.2.gfc = s.gfc ∧
      Adds K dom.1 { s with pixels := r.2.pixels, gfc := r.2.gfc } r.2 (collVars dom c) c.subs := by
  intro r
  have hvars : collVars dom c = (c.states.map fun g => globalVar g.pre g.field false (some g.nbMem)) ++
      c.plain.map fun f => globalVar f.name f false none := by
    rw [collVars, hdom, IoColl.toStore]
    simp [Function.comp_def]
  have hst : ∀ g ∈ c.states, (g.pre, g.field, some g.nbMem) ∈ c.toStore := fun g hg =>
    List.mem_append_left _ (List.mem_map.2 ⟨g, hg, rfl⟩)
  have hpl : ∀ f ∈ c.plain, (f.name, f, (none : Option Nat)) ∈ c.toStore := fun f hf =>
    List.mem_append_right _ (List.mem_map.2 ⟨f, hf, rfl⟩)
  have key := loops_add (K := K) (dom := dom.1) (c := c)
    (addS := fun s g => s.addGlobal g.pre g.field false (some g.nbMem) g.subNames)
    (addF := fun s' f => s'.addGlobal f.name f (decide (f.name ∈ s.gfc.map Prod.fst)) none [])
    (varS := fun g => globalVar g.pre g.field false (some g.nbMem))
    (varF := fun f => globalVar f.name f (decide (f.name ∈ s.gfc.map Prod.fst)) none)
    hc.fields_nodup hc.states_nodup (fun _ => rfl) (fun _ => rfl) (fun _ => rfl)
    (fun g hgs s' hg' => by
      obtain ⟨h1, h2, h4⟩ := hc.global _ _ _ hdom _ (hst g hgs)
      refine addGlobal_adds _ hg' h2 (h4.storable h1) (h1.onGrid (h2 ▸ h3)) h4.real (hK _ ?_)
      rw [hvars]
      exact List.mem_append_left _ (List.mem_map.2 ⟨g, hgs, rfl⟩))
    (fun f hf s' hg' => by
      obtain ⟨h1, h2, h4⟩ := hc.global _ _ _ hdom _ (hpl f hf)
      have hh : decide (f.name ∈ s.gfc.map Prod.fst) = false :=
        decide_eq_false (hgfc _ (List.mem_map.2 ⟨_, hpl f hf, rfl⟩))
      rw [hh]
      refine addGlobal_adds _ hg' h2 (h4.storable h1) (h1.onGrid (h2 ▸ h3)) h4.real (hK _ ?_)
      rw [hvars]
      exact List.mem_append_right _ (List.mem_map.2 ⟨f, hf, rfl⟩))
    hg hn hskip
  have hmap : (c.plain.map fun f => globalVar f.name f (decide (f.name ∈ s.gfc.map Prod.fst)) none) =
      c.plain.map fun f => globalVar f.name f false none := by
    apply List.map_congr_left
    intro f hf
    rw [decide_eq_false (hgfc _ (List.mem_map.2 ⟨_, hpl f hf, rfl⟩))]
  rw [hmap, ← hvars] at key
  obtain ⟨k1, k2⟩ := key
  have hr : r = andThen (andThen (forEach (Reg.stateRound c fun s g =>
        s.addGlobal g.pre g.field false (some g.nbMem) g.subNames) (c.states.map StateGroup.pre) s)
      fun s1 => forEach (Reg.fieldRound c fun s' f => s'.addGlobal f.name f (decide (f.name ∈ s.gfc.map Prod.fst)) none [])
        (c.fields.map IoField.name) s1)
      fun s2 => (.ok (), if s2.pixels.isSome then s2 else { s2 with pixels := some dm }) := by
    rw [andThen_assoc]
    rfl
  rw [andThen_ok k1] at hr
  generalize (andThen (forEach (Reg.stateRound c fun s g =>
        s.addGlobal g.pre g.field false (some g.nbMem) g.subNames) (c.states.map StateGroup.pre) s)
      fun s1 => forEach (Reg.fieldRound c fun s' f => s'.addGlobal f.name f (decide (f.name ∈ s.gfc.map Prod.fst)) none [])
        (c.fields.map IoField.name) s1).2 = s2 at hr k2
  have e : r.2 = { s2 with pixels := some (s.pixels.getD dm), gfc := s.gfc } := by
    rw [hr]
    have hp := k2.pixels
    have hgf := k2.gfc
    clear hr k2
    obtain ⟨a1, a2, a3, a4, a5, a6, a7, a8, a9, a10, a11⟩ := s2
    dsimp only at hp hgf ⊢
    rw [← hp, ← hgf]
    cases a6 <;> rfl
  refine ⟨by rw [hr], by rw [e], by rw [e], ?_⟩
  rw [e]
  exact k2.set _ _

theorem markLoop_ok {ids : List Int} {v : Int} {marks : List Int} (h : ∀ id ∈ ids, 0 ≤ id ∧ id < marks.length) :
    ∃ m, markLoop ids v marks = .ok m := by
  induction ids generalizing v marks with
  | nil => exact ⟨marks, rfl⟩
  | cons id ids ih =>
    rw [markLoop, setMark, if_pos (h id (by simp)), Res.ok_bind]
    exact ih fun i hi => by simpa using h i (by simp [hi])

/-- A local collection. -/
theorem registerLocal_adds {c : IoColl} {ids : List Int} {total off : Int} (hc : CollOk dom c) (h3 : dom.1.length ≤ 3)
    (hp : Pos dom.1) (hi : Within dom.1 dom.2.1 dom.2.2)
    (hdom : c.domain = .isLocal ids total off) (hK : ∀ v ∈ collVars dom c, ∀ d ∈ v.dims, K d) {s : Reg}
    (hg : GridFor dom.1 s.grid) (hn : (s.names ++ (c.name :: c.toStore.map Prod.fst)).Nodup)
    (hskip : ∀ n ∈ s.stateNames ++ c.subs, n ∉ s.names ++ (c.name :: c.toStore.map Prod.fst))
    (hgfc : c.name ∉ s.gfc.map Prod.fst) (hpix : s.pixels = some dom) :
    let r := s.registerLocal c ids total off (c.fields.map IoField.name) (c.states.map StateGroup.pre)
    r.1 = .ok () ∧ r.2.pixels = some dom ∧ r.2.gfc = s.gfc ++ [(c.name, pixelMarks s.mode dom ids off)] ∧
      Adds K dom.1 { s with pixels := r.2.pixels, gfc := r.2.gfc } r.2 (collVars dom c) c.subs := by
  intro r
  obtain ⟨ht, hids, hcl, hst⟩ := hc.isLocal _ _ _ hdom
  have hvars : collVars dom c = globalVar c.name (pixelField c.name dom) true none ::
      ((c.states.map fun g => localVar g.pre g.field (some g.nbMem) total c.name) ++
      c.plain.map fun f => localVar f.name f none total c.name) := by
    rw [collVars, hdom, IoColl.toStore]
    simp [Function.comp_def]
  obtain ⟨m, hm⟩ : ∃ m, (if s.mode = .write ∨ s.mode = .overwrite then markPixels (getSize dom.2.1).toNat off ids
      else .ok (List.replicate (getSize dom.2.1).toNat (-1 : Int))) = .ok m := by
    split
    · refine markLoop_ok fun id hid => ?_
      have := hids id hid
      rw [List.length_replicate]
      omega
    · exact ⟨_, rfl⟩
  -- the hidden variable
  have hcn : c.name ∉ s.names := fun h => (List.nodup_append.1 hn).2.2 _ h _ (by simp) rfl
  have hcs : c.name ∉ s.stateNames := fun h => hskip c.name (by simp [h]) (by simp)
  have hpixs := pixelField_storable dom hcl
  have hpixg := pixelField_onGrid (l := c.name) h3 hp hi
  obtain ⟨p1, p2⟩ := addGlobal_adds (K := K) (dom := dom.1)
    (s := { s with gfc := s.gfc ++ [(c.name, m)] }) (hidden := true) (hist := none) [] hg rfl hpixs hpixg
    (fun h => nomatch h) (hK _ (by rw [hvars]; simp))
  have hreg : Reg.registerGlobal { s with gfc := s.gfc ++ [(c.name, m)] }
      ⟨"", true, [pixelField c.name dom], [], .global dom.1 dom.2.1 dom.2.2⟩ dom [c.name] [] =
      (.ok (), (Reg.addGlobal { s with gfc := s.gfc ++ [(c.name, m)] } c.name (pixelField c.name dom) true none []).2) := by
    have e1 : Reg.fieldRound ⟨"", true, [pixelField c.name dom], [], .global dom.1 dom.2.1 dom.2.2⟩
        (fun s' f => s'.addGlobal f.name f
          (decide (f.name ∈ ((s.gfc ++ [(c.name, m)]).map Prod.fst))) none [])
        { s with gfc := s.gfc ++ [(c.name, m)] } c.name =
        Reg.addGlobal { s with gfc := s.gfc ++ [(c.name, m)] } c.name (pixelField c.name dom) true none [] := by
      rw [Reg.fieldRound, if_neg (show c.name ∉ Reg.names { s with gfc := s.gfc ++ [(c.name, m)] } from hcn),
        if_neg (show c.name ∉ s.stateNames from hcs)]
      have : (pixelField c.name dom).name = c.name := rfl
      simp [IoColl.getField, this]
    rw [Reg.registerGlobal]
    simp only [forEach]
    rw [andThen_ok rfl, e1, andThen_assoc, andThen_ok p1, andThen_ok rfl, if_pos]
    rw [p2.pixels]
    show s.pixels.isSome = true
    rw [hpix]
    rfl
  generalize hs2 : (Reg.addGlobal { s with gfc := s.gfc ++ [(c.name, m)] } c.name (pixelField c.name dom) true none []).2
    = s2 at hreg p2
  have hnm2 : s2.names = s.names := by
    rw [p2.names]
    simp [globalVar, Reg.names]
  have hsn2 : s2.stateNames = s.stateNames := by
    rw [p2.stateNames]; simp
  have hn2 : (s.names ++ c.toStore.map Prod.fst).Nodup := by
    have := List.nodup_append.1 hn
    refine List.nodup_append.2 ⟨this.1, (List.nodup_cons.1 this.2.1).2, fun a ha b hb => ?_⟩
    exact this.2.2 a ha b (List.mem_cons_of_mem _ hb)
  have hstS : ∀ g ∈ c.states, (g.pre, g.field, some g.nbMem) ∈ c.toStore := fun g hg =>
    List.mem_append_left _ (List.mem_map.2 ⟨g, hg, rfl⟩)
  have hpl : ∀ f ∈ c.plain, (f.name, f, (none : Option Nat)) ∈ c.toStore := fun f hf =>
    List.mem_append_right _ (List.mem_map.2 ⟨f, hf, rfl⟩)
  have key := loops_add (K := K) (dom := dom.1) (c := c)
    (addS := fun s g => s.addLocal g.pre g.field (some g.nbMem) total c.name m g.subNames)
    (addF := fun s f => s.addLocal f.name f none total c.name m [])
    (varS := fun g => localVar g.pre g.field (some g.nbMem) total c.name)
    (varF := fun f => localVar f.name f none total c.name)
    hc.fields_nodup hc.states_nodup (fun _ => rfl) (fun _ => rfl) (fun _ => rfl)
    (fun g hgs s' _ => by
      obtain ⟨h1, h2, h4⟩ := hst _ (hstS g hgs)
      refine addLocal_adds _ _ _ h1 ht h2 (h4.storableLocal h1) h4.real
        (hK (localVar g.pre g.field (some g.nbMem) total c.name) ?_)
      rw [hvars]
      exact List.mem_cons_of_mem _ (List.mem_append_left _ (List.mem_map.2 ⟨g, hgs, rfl⟩)))
    (fun f hf s' _ => by
      obtain ⟨h1, h2, h4⟩ := hst _ (hpl f hf)
      refine addLocal_adds _ _ _ h1 ht h2 (h4.storableLocal h1) h4.real (hK (localVar f.name f none total c.name) ?_)
      rw [hvars]
      exact List.mem_cons_of_mem _ (List.mem_append_right _ (List.mem_map.2 ⟨f, hf, rfl⟩)))
    (s := s2) (p2.grid hg) (by rw [hnm2]; exact hn2)
    (by
      rw [hnm2, hsn2]
      intro n hn' hmem
      refine hskip n hn' ?_
      rcases List.mem_append.1 hmem with h | h
      · exact List.mem_append_left _ h
      · exact List.mem_append_right _ (List.mem_cons_of_mem _ h))
  obtain ⟨k1, k2⟩ := key
  have hr : r = andThen (forEach (Reg.stateRound c fun s g =>
        s.addLocal g.pre g.field (some g.nbMem) total c.name m g.subNames) (c.states.map StateGroup.pre) s2)
      fun s1 => forEach (Reg.fieldRound c fun s f => s.addLocal f.name f none total c.name m [])
        (c.fields.map IoField.name) s1 := by
    show Reg.registerLocal _ _ _ _ _ _ _ = _
    rw [Reg.registerLocal, hpix]
    simp only [if_neg hgfc, hm]
    rw [hpix] at hreg
    rw [hreg]
    rfl
  rw [← hr] at k1 k2
  have ktot := p2.trans k2
  rw [List.singleton_append, ← hvars, List.nil_append] at ktot
  have hpx : r.2.pixels = some dom := by rw [ktot.pixels]; exact hpix
  have hgf : r.2.gfc = s.gfc ++ [(c.name, m)] := ktot.gfc
  refine ⟨k1, hpx, by rw [hgf, pixelMarks, hm], ?_⟩
  have e1 : ({ s with pixels := r.2.pixels, gfc := r.2.gfc } : Reg) = { s with gfc := s.gfc ++ [(c.name, m)] } := by
    rw [hpx, hgf, ← hpix]
  rw [e1]
  exact ktot

/-! ### A list of collections -/

theorem visible_names (c : IoColl) :
    ((collVars dom c).filter fun v => !v.hidden).map Var.name = c.toStore.map Prod.fst := by
  unfold collVars
  cases c.domain with
  | global nb sh loc =>
    rw [List.filter_eq_self.2 (by
      intro v hv
      obtain ⟨x, -, rfl⟩ := List.mem_map.1 hv
      rfl), List.map_map]
    rfl
  | isLocal ids total off =>
    rw [List.filter_cons_of_neg (by simp [globalVar]), List.filter_eq_self.2 (by
      intro v hv
      obtain ⟨x, -, rfl⟩ := List.mem_map.1 hv
      rfl), List.map_map]
    rfl

theorem var_names (c : IoColl) : (collVars dom c).map Var.name = c.fileNames := by
  unfold collVars IoColl.fileNames
  cases c.domain with
  | global nb sh loc => rw [List.map_map]; rfl
  | isLocal ids total off => rw [List.map_cons, List.map_map]; rfl

/-- The state after the collections `pre` have been registered. -/
structure Common (K : Dim → Prop) (dom : List Int × List Int × List Int) (pre : List IoColl) (s : Reg) : Prop where
  vars : s.vars = (pre.flatMap (collVars dom)).map (·, true)
  stateNames : s.stateNames = pre.flatMap IoColl.subs
  gfc : s.gfc = pre.flatMap (collMarks s.mode dom)
  pixels : pre ≠ [] → s.pixels = some dom
  noPixels : pre = [] → s.pixels = none
  grid : GridFor dom.1 s.grid
  has : ∀ v ∈ pre.flatMap (collVars dom), ∀ d ∈ v.dims, d ∈ s.dims.map Prod.fst
  known : ∀ d ∈ s.dims.map Prod.fst, K d
  nodup : (s.dims.map Prod.fst).Nodup
  order : s.dims.map Prod.fst = addNew [⟨"frame", 0⟩] ((pre.flatMap (collVars dom)).flatMap Var.dims)

/-- The state before the new dimensions and variables get their ids. -/
structure Between (K : Dim → Prop) (dom : List Int × List Int × List Int) (pre : List IoColl) (c : IoColl) (s s1 : Reg) :
    Prop where
  vars : s1.vars = (pre.flatMap (collVars dom)).map (·, true) ++ (collVars dom c).map (·, false)
  stateNames : s1.stateNames = (pre ++ [c]).flatMap IoColl.subs
  gfc : s1.gfc = (pre ++ [c]).flatMap (collMarks s1.mode dom)
  pixels : s1.pixels = some dom
  grid : GridFor dom.1 s1.grid
  has : ∀ v ∈ (pre ++ [c]).flatMap (collVars dom), ∀ d ∈ v.dims, d ∈ s1.dims.map Prod.fst
  dims : ∃ ds : List Dim, s1.dims = s.dims ++ ds.map (·, false)
  known : ∀ d ∈ s1.dims.map Prod.fst, K d
  nodup : (s1.dims.map Prod.fst).Nodup
  mode : s1.mode = s.mode
  nbFrames : s1.nbFrames = s.nbFrames
  fileDims : s1.fileDims = s.fileDims
  fileVars : s1.fileVars = s.fileVars
  numrecs : s1.numrecs = s.numrecs
  order : s1.dims.map Prod.fst = addNew [⟨"frame", 0⟩] (((pre ++ [c]).flatMap (collVars dom)).flatMap Var.dims)

theorem Common.names_eq {pre : List IoColl} {s : Reg} (h : Common K dom pre s) :
    s.names = pre.flatMap fun c => c.toStore.map Prod.fst := by
  rw [Reg.names, h.vars, List.filter_map, List.map_map]
  have : ∀ pre : List IoColl, ((pre.flatMap (collVars dom)).filter fun v => !v.hidden).map Var.name =
      pre.flatMap fun c => c.toStore.map Prod.fst := by
    intro pre
    induction pre with
    | nil => rfl
    | cons c pre ih => rw [List.flatMap_cons, List.filter_append, List.map_append, ih, visible_names, List.flatMap_cons]
  exact this pre

theorem register_between {pre rest : List IoColl} {c : IoColl} (hcs : CollsOk dom (pre ++ c :: rest))
    (hK : ∀ v ∈ collVars dom c, ∀ d ∈ v.dims, K d) {s : Reg} (hs : Common K dom pre s) :
    ∃ s1, Between K dom pre c s s1 ∧ s.register c ["REGISTER_ALL_FIELDS"] ["REGISTER_ALL_STATE_FIELDS"] =
      if s1.mode = .write ∨ s1.mode = .overwrite then s1.define else s1.inquire := by
  have hc : CollOk dom c := hcs.each c (by simp)
  have hfn : ((pre.flatMap IoColl.fileNames) ++ (c.fileNames ++ rest.flatMap IoColl.fileNames)).Nodup := by
    have := hcs.names
    rwa [List.flatMap_append, List.flatMap_cons] at this
  have hsub : ∀ {n}, n ∈ pre.flatMap (fun c => c.toStore.map Prod.fst) → n ∈ pre.flatMap IoColl.fileNames := by
    intro n h
    obtain ⟨x, hx, hn⟩ := List.mem_flatMap.1 h
    exact List.mem_flatMap.2 ⟨x, hx, List.mem_append_right _ hn⟩
  have hsubh : ∀ {n}, n ∈ pre.flatMap hiddenNames → n ∈ pre.flatMap IoColl.fileNames := by
    intro n h
    obtain ⟨x, hx, hn⟩ := List.mem_flatMap.1 h
    exact List.mem_flatMap.2 ⟨x, hx, List.mem_append_left _ hn⟩
  have hprend : (pre.flatMap fun c => c.toStore.map Prod.fst).Nodup := by
    have h1 := (List.nodup_append.1 hfn).1
    clear * - h1
    induction pre with
    | nil => simp
    | cons a pre ih =>
      rw [List.flatMap_cons, List.nodup_append] at h1
      rw [List.flatMap_cons, List.nodup_append]
      refine ⟨?_, ih h1.2.1, fun x hx y hy => h1.2.2 x (List.mem_append_right _ hx) y ?_⟩
      · have := h1.1
        rw [fileNames_eq, List.nodup_append] at this
        exact this.2.1
      · obtain ⟨z, hz, hn⟩ := List.mem_flatMap.1 hy
        exact List.mem_flatMap.2 ⟨z, hz, List.mem_append_right _ hn⟩
  have hcnd : c.fileNames.Nodup := (List.nodup_append.1 (List.nodup_append.1 hfn).2.1).1
  have hdisj : ∀ n ∈ pre.flatMap IoColl.fileNames, n ∉ c.fileNames := fun n h1 h2 =>
    (List.nodup_append.1 hfn).2.2 n h1 n (List.mem_append_left _ h2) rfl
  have hnames : (s.names ++ c.fileNames).Nodup := by
    rw [hs.names_eq]
    exact List.nodup_append.2 ⟨hprend, hcnd, fun a ha b hb e => hdisj a (hsub ha) (e ▸ hb)⟩
  have hskip : ∀ n ∈ s.stateNames ++ c.subs, n ∉ s.names ++ c.fileNames := by
    intro n hn hm
    refine hcs.subs n ?_ ?_
    · rw [List.flatMap_append, List.flatMap_cons]
      rcases List.mem_append.1 hn with h | h
      · exact List.mem_append_left _ (hs.stateNames ▸ h)
      · exact List.mem_append_right _ (List.mem_append_left _ h)
    · rw [List.flatMap_append, List.flatMap_cons]
      rcases List.mem_append.1 hm with h | h
      · exact List.mem_append_left _ (hsub (hs.names_eq ▸ h))
      · exact List.mem_append_right _ (List.mem_append_left _ h)
  have hgfc : ∀ n ∈ c.fileNames, n ∉ s.gfc.map Prod.fst := by
    intro n hn h
    rw [hs.gfc, collMarks_names] at h
    exact hdisj n (hsubh h) hn
  -- from the loops to the state in between
  have fin : ∀ r : Res Unit × Reg, r.1 = .ok () → r.2.pixels = some dom →
      r.2.gfc = s.gfc ++ collMarks s.mode dom c →
      Adds K dom.1 { s with pixels := r.2.pixels, gfc := r.2.gfc } r.2 (collVars dom c) c.subs →
      Between K dom pre c s r.2 := by
    intro r _ hp hg ha
    obtain ⟨ds, hd1, hd2⟩ := ha.dims
    have hd1 : r.2.dims = s.dims ++ ds.map (·, false) := hd1
    refine ⟨by rw [ha.vars, hs.vars], by rw [ha.stateNames, hs.stateNames]; simp, by
      rw [hg, hs.gfc, show r.2.mode = s.mode from ha.mode]; simp, hp,
      ha.grid hs.grid, ?_, ⟨ds, hd1⟩, ?_, ha.nodup hs.nodup, ha.mode, ha.nbFrames, ha.fileDims, ha.fileVars, ha.numrecs,
      by
        rw [ha.order, show List.map Prod.fst _ = _ from hs.order, List.flatMap_append, List.flatMap_append, addNew_append]
        simp⟩
    · intro v hv d hd
      rw [List.flatMap_append, List.mem_append] at hv
      rcases hv with hv | hv
      · rw [hd1, List.map_append]
        exact List.mem_append_left _ (hs.has v hv d hd)
      · exact ha.has v (by simpa using hv) d hd
    · intro d hd
      rw [hd1, List.map_append, List.mem_append] at hd
      rcases hd with hd | hd
      · exact hs.known d hd
      · exact hd2 d (by simpa [Function.comp_def] using hd)
  rw [Reg.register, if_neg (by simp [hc.init])]
  simp only [resolve, if_true]
  cases hdom : c.domain with
  | global nb sh loc =>
    have e : c.fileNames = c.toStore.map Prod.fst := by rw [IoColl.fileNames, hdom]; rfl
    rw [e] at hnames hskip hgfc
    obtain ⟨h1, h2, h3, h4⟩ := registerGlobal_adds (K := K) hc hcs.dom_dim hdom hK hs.grid hnames hskip hgfc
      (nb, sh, loc)
    have hpx : s.pixels.getD (nb, sh, loc) = dom := by
      by_cases hpre : pre = []
      · rw [hs.noPixels hpre]
        obtain ⟨c0, r0, hc0, hd0⟩ := hcs.first
        rw [hpre, List.nil_append, List.cons.injEq] at hc0
        rw [← hc0.1, hdom] at hd0
        cases hd0
        rfl
      · rw [hs.pixels hpre]; rfl
    refine ⟨_, fin _ h1 (by rw [h2, hpx]) (by rw [h3]; simp [collMarks, hdom]) h4, ?_⟩
    rw [andThen_ok h1]
  | isLocal ids total off =>
    have e : c.fileNames = c.name :: c.toStore.map Prod.fst := by rw [IoColl.fileNames, hdom]; rfl
    have hpre : pre ≠ [] := by
      rintro rfl
      obtain ⟨c0, r0, hc0, hd0⟩ := hcs.first
      rw [List.nil_append, List.cons.injEq] at hc0
      rw [← hc0.1, hdom] at hd0
      cases hd0
    rw [e] at hnames hskip hgfc
    obtain ⟨h1, h2, h3, h4⟩ := registerLocal_adds (K := K) hc hcs.dom_dim hcs.dom_pos hcs.inside hdom hK hs.grid hnames
      hskip (hgfc _ (by simp)) (hs.pixels hpre)
    refine ⟨_, fin _ h1 h2 (by rw [h3]; simp [collMarks, hdom]) h4, ?_⟩
    rw [andThen_ok h1]

/-! ### Ids -/

theorem defineDims_true (A : List Dim) (rest : List (Dim × Bool)) (file : List Dim) :
    defineDims (A.map (·, true) ++ rest) file =
      ((defineDims rest file).1, A.map (·, true) ++ (defineDims rest file).2.1, (defineDims rest file).2.2) := by
  induction A with
  | nil => rfl
  | cons a A ih => rw [List.map_cons, List.cons_append, defineDims, ih]; rfl

theorem defineDims_new (hcoh : ∀ d e, K d → K e → d.name = e.name → d = e)
    (hz : ∀ d, K d → d.size = 0 → d = ⟨"frame", 0⟩) (B : List Dim) {file : List Dim} (hk : ∀ d ∈ file ++ B, K d)
    (hnd : (file ++ B).Nodup) : defineDims (B.map (·, false)) file = (.ok (), B.map (·, true), file ++ B) := by
  induction B generalizing file with
  | nil => simp [defineDims]
  | cons b B ih =>
    have hb : ∀ d ∈ file, d ≠ b := fun d hd => (List.nodup_append.1 hnd).2.2 d hd b (by simp)
    have hkb := hk b (by simp)
    rw [List.map_cons, defineDims, if_neg]
    · rw [ih (file := file ++ [b]) (by simpa using hk) (by simpa using hnd)]
      simp
    · rintro (h | ⟨h0, h⟩)
      · obtain ⟨d, hd, hn⟩ := List.mem_map.1 h
        exact hb d hd (hcoh d b (hk d (List.mem_append_left _ hd)) hkb hn)
      · obtain ⟨d, hd, hn⟩ := List.mem_map.1 h
        exact hb d hd ((hz d (hk d (List.mem_append_left _ hd)) hn).trans (hz b hkb h0).symm)

theorem defineVars_true (A : List Var) (rest : List (Var × Bool)) (file : List String) :
    defineVars (A.map (·, true) ++ rest) file =
      ((defineVars rest file).1, A.map (·, true) ++ (defineVars rest file).2.1, (defineVars rest file).2.2) := by
  induction A with
  | nil => rfl
  | cons a A ih => rw [List.map_cons, List.cons_append, defineVars, ih]; rfl

theorem defineVars_new (B : List Var) {file : List String} (hnd : (file ++ B.map Var.name).Nodup) :
    defineVars (B.map (·, false)) file = (.ok (), B.map (·, true), file ++ B.map Var.name) := by
  induction B generalizing file with
  | nil => simp [defineVars]
  | cons b B ih =>
    rw [List.map_cons, defineVars, if_neg]
    · rw [ih (file := file ++ [b.name]) (by simpa using hnd)]
      simp
    · intro h
      exact (List.nodup_append.1 hnd).2.2 _ h b.name (by simp) rfl

theorem inquireDims_ok {file : List Dim} {numrecs : Int} (dims : List (Dim × Bool))
    (h : ∀ d ∈ dims.map Prod.fst, d.name ∈ file.map Dim.name) :
    inquireDims file numrecs dims numrecs = (.ok (), dims.map fun d => (d.1, true), numrecs) := by
  induction dims with
  | nil => rfl
  | cons d dims ih =>
    obtain ⟨d, b⟩ := d
    have ih := ih fun e he => h e (List.mem_cons_of_mem _ he)
    cases b with
    | true => rw [inquireDims, ih]; rfl
    | false =>
      rw [inquireDims]
      obtain ⟨e, he, hn⟩ := List.mem_map.1 (h d (by simp))
      cases hf : file.find? fun e => e.name = d.name with
      | none =>
        have := List.find?_eq_none.1 hf e he
        simp [hn] at this
      | some e' =>
        dsimp only
        rw [show (if e'.size = 0 then numrecs else numrecs) = numrecs by split <;> rfl, ih]
        rfl

theorem inquireVars_ok {file : List String} (vars : List (Var × Bool))
    (h : ∀ v ∈ vars.map Prod.fst, v.name ∈ file) :
    inquireVars file vars = (.ok (), vars.map fun v => (v.1, true)) := by
  induction vars with
  | nil => rfl
  | cons v vars ih =>
    obtain ⟨v, b⟩ := v
    have ih := ih fun e he => h e (List.mem_cons_of_mem _ he)
    cases b with
    | true => rw [inquireVars, ih]; rfl
    | false => rw [inquireVars, if_pos (h v (by simp)), ih]; rfl

/-- A new file. -/
structure Writing (K : Dim → Prop) (dom : List Int × List Int × List Int) (pre : List IoColl) (s : Reg) : Prop
    extends Common K dom pre s where
  mode : s.mode = .write ∨ s.mode = .overwrite
  marked : ∃ A B : List Dim, s.dims = A.map (·, true) ++ B.map (·, false) ∧ s.fileDims = A ∧ (pre ≠ [] → B = [])
  fileVars : s.fileVars = (pre.flatMap (collVars dom)).map Var.name
  nbFrames : s.nbFrames = 0
  numrecs : s.numrecs = 0
  frame : ⟨"frame", 0⟩ ∈ s.dims.map Prod.fst

theorem all_names (l : List IoColl) : (l.flatMap (collVars dom)).map Var.name = l.flatMap IoColl.fileNames := by
  induction l with
  | nil => rfl
  | cons c l ih => rw [List.flatMap_cons, List.map_append, ih, var_names, List.flatMap_cons]

theorem register_writing (hcoh : ∀ d e, K d → K e → d.name = e.name → d = e)
    (hz : ∀ d, K d → d.size = 0 → d = ⟨"frame", 0⟩) {pre rest : List IoColl} {c : IoColl}
    (hcs : CollsOk dom (pre ++ c :: rest)) (hK : ∀ v ∈ collVars dom c, ∀ d ∈ v.dims, K d) {s : Reg}
    (hs : Writing K dom pre s) :
    (s.register c ["REGISTER_ALL_FIELDS"] ["REGISTER_ALL_STATE_FIELDS"]).1 = .ok () ∧
      Writing K dom (pre ++ [c]) (s.register c ["REGISTER_ALL_FIELDS"] ["REGISTER_ALL_STATE_FIELDS"]).2 := by
  obtain ⟨s1, hb, e⟩ := register_between hcs hK hs.toCommon
  rw [e, if_pos (by rw [hb.mode]; exact hs.mode)]
  clear e
  obtain ⟨A, B, h1, h2, -⟩ := hs.marked
  obtain ⟨ds, h3⟩ := hb.dims
  have hd : s1.dims = A.map (·, true) ++ (B ++ ds).map (·, false) := by rw [h3, h1]; simp
  have hfst : s1.dims.map Prod.fst = A ++ (B ++ ds) := by rw [hd]; simp [Function.comp_def]
  have hf : s1.fileDims = A := hb.fileDims.trans h2
  have hfv : s1.fileVars = (pre.flatMap (collVars dom)).map Var.name := hb.fileVars.trans hs.fileVars
  have hdef := defineDims_new hcoh hz (B ++ ds) (file := A) (by rw [← hfst]; exact hb.known)
    (by rw [← hfst]; exact hb.nodup)
  have hvn : ((pre.flatMap (collVars dom)).map Var.name ++ (collVars dom c).map Var.name).Nodup := by
    rw [all_names, var_names]
    have := hcs.names
    rw [List.flatMap_append, List.flatMap_cons, ← List.append_assoc] at this
    exact (List.nodup_append.1 this).1
  have hdv := defineVars_new (collVars dom c) hvn
  have hr : s1.define = (.ok (), { s1 with
      dims := (A ++ (B ++ ds)).map (·, true), fileDims := A ++ (B ++ ds),
      vars := ((pre ++ [c]).flatMap (collVars dom)).map (·, true),
      fileVars := ((pre ++ [c]).flatMap (collVars dom)).map Var.name }) := by
    rw [Reg.define, hd, hf, defineDims_true, hdef]
    simp only [andThen]
    rw [hb.vars, hfv, defineVars_true, hdv]
    simp
  rw [hr]
  refine ⟨rfl, ⟨rfl, hb.stateNames, hb.gfc, fun _ => hb.pixels, fun h => absurd h (by simp), hb.grid, ?_, ?_, ?_, ?_⟩, ?_,
    ⟨A ++ (B ++ ds), [], by simp, rfl, fun _ => rfl⟩, rfl, hb.nbFrames.trans hs.nbFrames, hb.numrecs.trans hs.numrecs, ?_⟩
  · intro v hv d hdd
    have := hb.has v hv d hdd
    rw [hfst] at this
    simpa [Function.comp_def] using this
  · have := hb.known
    rw [hfst] at this
    simpa [Function.comp_def] using this
  · have := hb.nodup
    rw [hfst] at this
    simpa [Function.comp_def] using this
  · rw [← hb.order, hfst]
    simp [Function.comp_def]
  · show s1.mode = _ ∨ s1.mode = _
    rw [hb.mode]; exact hs.mode
  · have := hs.frame
    rw [h1] at this
    simp only [List.map_append, List.map_map, Function.comp_def, List.map_id', List.mem_append] at this ⊢
    rcases this with h | h
    · exact Or.inl h
    · exact Or.inr (Or.inl h)

/-- A file that is read. -/
structure Reading (K : Dim → Prop) (dom : List Int × List Int × List Int) (file : List Dim) (fileVars : List String)
    (numrecs : Int) (pre : List IoColl) (s : Reg) : Prop extends Common K dom pre s where
  mode : s.mode = .read ∨ s.mode = .append
  nbFrames : s.nbFrames = numrecs
  numrecs_eq : s.numrecs = numrecs
  fileDims_eq : s.fileDims = file
  fileVars_eq : s.fileVars = fileVars

theorem length_le_of_names {β : Type} {key : β → String} {l : List β} {file : List String} (hnd : (l.map key).Nodup)
    (h : ∀ x ∈ l, key x ∈ file) : l.length ≤ file.length := by
  have : l.map key ⊆ file := by
    intro n hn
    obtain ⟨x, hx, rfl⟩ := List.mem_map.1 hn
    exact h x hx
  simpa using (List.subperm_of_subset hnd this).length_le

theorem register_reading (hcoh : ∀ d e, K d → K e → d.name = e.name → d = e) {file : List Dim} {fileVars : List String}
    {numrecs : Int} (hin : ∀ d, K d → d.name ∈ file.map Dim.name) {pre rest : List IoColl} {c : IoColl}
    (hcs : CollsOk dom (pre ++ c :: rest)) (hK : ∀ v ∈ collVars dom c, ∀ d ∈ v.dims, K d)
    (hfile : ∀ v ∈ (pre ++ [c]).flatMap (collVars dom), v.name ∈ fileVars) {s : Reg}
    (hs : Reading K dom file fileVars numrecs pre s) :
    (s.register c ["REGISTER_ALL_FIELDS"] ["REGISTER_ALL_STATE_FIELDS"]).1 = .ok () ∧
      Reading K dom file fileVars numrecs (pre ++ [c])
        (s.register c ["REGISTER_ALL_FIELDS"] ["REGISTER_ALL_STATE_FIELDS"]).2 := by
  obtain ⟨s1, hb, e⟩ := register_between hcs hK hs.toCommon
  have hm : ¬ (s1.mode = .write ∨ s1.mode = .overwrite) := by
    rw [hb.mode]
    rcases hs.mode with h | h <;> simp [h]
  rw [e, if_neg hm]
  clear e
  have hfd : s1.fileDims = file := hb.fileDims.trans hs.fileDims_eq
  have hfv : s1.fileVars = fileVars := hb.fileVars.trans hs.fileVars_eq
  have hnr : s1.numrecs = numrecs := hb.numrecs.trans hs.numrecs_eq
  have hnf : s1.nbFrames = numrecs := hb.nbFrames.trans hs.nbFrames
  have hdn : ((s1.dims.map Prod.fst).map Dim.name).Nodup :=
    List.Nodup.map_on (fun d hd e he h => hcoh d e (hb.known d hd) (hb.known e he) h) hb.nodup
  have hl1 : ¬ s1.fileDims.length < s1.dims.length := by
    have := length_le_of_names hdn fun d hd => hin d (hb.known d hd)
    rw [hfd]
    simp only [List.length_map] at this
    omega
  have hvars : s1.vars.map Prod.fst = (pre ++ [c]).flatMap (collVars dom) := by
    rw [hb.vars]; simp [Function.comp_def]
  have hvn : ((s1.vars.map Prod.fst).map Var.name).Nodup := by
    rw [hvars, all_names]
    have := hcs.names
    rw [List.flatMap_append, List.flatMap_cons, ← List.append_assoc] at this
    simpa using (List.nodup_append.1 this).1
  have hl2 : ¬ s1.fileVars.length < s1.vars.length := by
    have := length_le_of_names hvn fun v hv => hfile v (hvars ▸ hv)
    rw [hfv]
    simp only [List.length_map] at this
    omega
  have hr : s1.inquire = (.ok (), { s1 with
      dims := s1.dims.map fun d => (d.1, true), nbFrames := numrecs, vars := s1.vars.map fun v => (v.1, true) }) := by
    rw [Reg.inquire, if_neg hl1, hfd, hnr, hnf, inquireDims_ok _ fun d hd => hin d (hb.known d hd)]
    simp only [andThen]
    rw [if_neg hl2, hfv, inquireVars_ok _ fun v hv => hfile v (hvars ▸ hv)]
  rw [hr]
  have hmap : (s1.dims.map fun d => (d.1, true)).map Prod.fst = s1.dims.map Prod.fst := by simp [Function.comp_def]
  refine ⟨rfl, ⟨?_, hb.stateNames, hb.gfc, fun _ => hb.pixels, fun h => absurd h (by simp), hb.grid, ?_, ?_, ?_, ?_⟩, ?_,
    rfl, hnr, hfd, hfv⟩
  · show (s1.vars.map fun v => (v.1, true)) = _
    rw [← hvars, List.map_map]
    rfl
  · rw [hmap]; exact hb.has
  · rw [hmap]; exact hb.known
  · rw [hmap]; exact hb.nodup
  · rw [hmap]; exact hb.order
  · show s1.mode = _ ∨ s1.mode = _
    rw [hb.mode]; exact hs.mode

/-! ### The dimensions of collections that belong together -/

/-- Name, components and number of local points of each variable. -/
def collEntries (c : IoColl) : List (String × List Int × Int) :=
  match c.domain with
  | .global .. => c.toStore.map fun x => (x.1, x.2.1.layout.comps, 1)
  | .isLocal _ total _ => (c.name, [1], 1) :: c.toStore.map fun x => (x.1, x.2.1.layout.comps, total)

theorem entries_names (c : IoColl) : (collEntries c).map Prod.fst = c.fileNames := by
  unfold collEntries IoColl.fileNames
  cases c.domain with
  | global nb sh loc => rw [List.map_map]; rfl
  | isLocal ids total off => rw [List.map_cons, List.map_map]; rfl

/-- The components of the variable with a name. -/
def compsIn (l : List (String × List Int × Int)) (n : String) : List Int :=
  ((l.find? fun e => e.1 = n).map fun e => e.2.1).getD []

/-- The number of local points of the variable with a name. -/
def totalIn (l : List (String × List Int × Int)) (n : String) : Int :=
  ((l.find? fun e => e.1 = n).map fun e => e.2.2).getD 0

/-- The dimensions of the variables of the collections. -/
def dimsOf (dom : List Int) (cs : List IoColl) : Dim → Prop :=
  KnownDim (compsIn (cs.flatMap collEntries)) (totalIn (cs.flatMap collEntries)) dom

theorem entries_find {cs : List IoColl} (hn : (cs.flatMap IoColl.fileNames).Nodup) {e : String × List Int × Int}
    (he : e ∈ cs.flatMap collEntries) :
    compsIn (cs.flatMap collEntries) e.1 = e.2.1 ∧ totalIn (cs.flatMap collEntries) e.1 = e.2.2 := by
  have : (cs.flatMap collEntries).map Prod.fst = cs.flatMap IoColl.fileNames := by
    clear hn he
    induction cs with
    | nil => rfl
    | cons c cs ih => rw [List.flatMap_cons, List.map_append, ih, entries_names, List.flatMap_cons]
  have hf := find_nodup Prod.fst (this ▸ hn) he
  rw [compsIn, totalIn, hf]
  exact ⟨rfl, rfl⟩

theorem collVars_known {cs : List IoColl} (hcs : CollsOk dom cs) {c : IoColl} (hc : c ∈ cs) :
    ∀ v ∈ collVars dom c, ∀ d ∈ v.dims, dimsOf dom.1 cs d := by
  have hok := hcs.each c hc
  have hfind : ∀ e ∈ collEntries c, compsIn (cs.flatMap collEntries) e.1 = e.2.1 ∧
      totalIn (cs.flatMap collEntries) e.1 = e.2.2 := fun e he =>
    entries_find hcs.names (List.mem_flatMap.2 ⟨c, hc, he⟩)
  intro v hv
  cases hdom : c.domain with
  | global nb sh loc =>
    rw [collVars, hdom] at hv
    rw [collEntries, hdom] at hfind
    obtain ⟨x, hx, rfl⟩ := List.mem_map.1 hv
    obtain ⟨h1, h2, h4⟩ := hok.global _ _ _ hdom x hx
    have := hfind _ (List.mem_map.2 ⟨x, hx, rfl⟩)
    rw [dimsOf, ← h2]
    exact globalVar_known (v := globalVar x.1 x.2.1 false x.2.2) ⟨rfl, rfl, rfl, h4.real⟩ this.1 h1.comps_pos h1.sub_pos
      h1.dom_pos
  | isLocal ids total off =>
    rw [collVars, hdom] at hv
    rw [collEntries, hdom] at hfind
    obtain ⟨ht, -, -, hst⟩ := hok.isLocal _ _ _ hdom
    rcases List.mem_cons.1 hv with rfl | hv
    · have := hfind _ List.mem_cons_self
      exact globalVar_known (f := pixelField c.name dom) ⟨rfl, rfl, rfl, fun h => nomatch h⟩ this.1 (by simp [pixelField, Pos])
        (by simp [pixelField]) hcs.dom_pos
    · obtain ⟨x, hx, rfl⟩ := List.mem_map.1 hv
      obtain ⟨h1, -⟩ := hst x hx
      have := hfind _ (List.mem_cons_of_mem _ (List.mem_map.2 ⟨x, hx, rfl⟩))
      have e : (localVar x.1 x.2.1 x.2.2 total c.name).dims =
          localDims x.1 x.2.1 x.2.2 (totalIn (cs.flatMap collEntries) x.1) := by rw [this.2]; rfl
      rw [e]
      exact localDims_known this.1 h1.comps_pos h1.sub_pos (by rw [this.2]; exact ht)

end

end Verif.NetCDF
