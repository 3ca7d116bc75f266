import Verif.Lemmas.Collective
/-
Registration on two processes: outcomes, states and collective calls.
-/
namespace Verif.NetCDF
open Verif Verif.Ccoord Verif.Layout Verif.FileIO

/-- The subdomains of two processes. -/
def DomAlike (d d' : List Int × List Int × List Int) : Prop :=
  d.1 = d'.1 ∧ d.2.1.length = d'.2.1.length ∧ d.2.2.length = d'.2.2.length

/-- A variable with its mark on two processes. -/
def MarkedAlike (a b : Var × Bool) : Prop := a.1.Alike b.1 ∧ a.2 = b.2

/-- The file objects of two processes. -/
structure Reg.Alike (s t : Reg) : Prop where
  mode : s.mode = t.mode
  dims : s.dims = t.dims
  vars : List.Forall₂ MarkedAlike s.vars t.vars
  grid : s.grid = t.grid
  stateNames : s.stateNames = t.stateNames
  pixels : (s.pixels = none ∧ t.pixels = none) ∨ ∃ d d', s.pixels = some d ∧ t.pixels = some d' ∧ DomAlike d d'
  gfc : s.gfc.map Prod.fst = t.gfc.map Prod.fst
  nbFrames : s.nbFrames = t.nbFrames
  fileDims : s.fileDims = t.fileDims
  fileVars : s.fileVars = t.fileVars
  numrecs : s.numrecs = t.numrecs

theorem Reg.Alike.names {s t : Reg} (h : s.Alike t) : s.names = t.names := by
  rw [Reg.names, Reg.names]
  have := h.vars
  generalize s.vars = l at this ⊢
  generalize t.vars = m at this ⊢
  induction this with
  | nil => rfl
  | @cons a b l m hab _ ih =>
    simp only [List.filter_cons, hab.1.hidden]
    split
    · simp [ih, hab.1.name]
    · exact ih

/-- Same outcome, states that belong together. -/
def Sim (r r' : Res Unit × Reg) : Prop := r.1 = r'.1 ∧ r.2.Alike r'.2

theorem andThen_sim {r r' : Res Unit × Reg} {k k' : Reg → Res Unit × Reg} (h : Sim r r')
    (hk : ∀ s t, s = r.2 → t = r'.2 → s.Alike t → Sim (k s) (k' t)) : Sim (andThen r k) (andThen r' k') := by
  rw [andThen, andThen, h.1]
  cases r'.1 with
  | ok _ => exact hk _ _ rfl rfl h.2
  | throw e => exact ⟨rfl, h.2⟩
  | ub => exact ⟨rfl, h.2⟩

theorem thenCalls_same {l l' : List CollCall} {r r' : Res Unit × Reg} {k k' : Reg → List CollCall} (hl : l = l')
    (h : Sim r r') (hk : ∀ s t, s = r.2 → t = r'.2 → s.Alike t → k s = k' t) : thenCalls l r k = thenCalls l' r' k' := by
  rw [thenCalls, thenCalls, hl, h.1]
  cases r'.1 with
  | ok _ => rw [hk _ _ rfl rfl h.2]
  | throw e => rfl
  | ub => rfl

theorem forEach_sim {β : Type} {f f' : Reg → β → Res Unit × Reg} (hf : ∀ s t b, s.Alike t → Sim (f s b) (f' t b))
    (l : List β) {s t : Reg} (h : s.Alike t) : Sim (forEach f l s) (forEach f' l t) := by
  induction l generalizing s t with
  | nil => exact ⟨rfl, h⟩
  | cons b l ih => exact andThen_sim (hf s t b h) fun s t _ _ h => ih h

theorem forEachCalls_same {β : Type} {f f' : Reg → β → Res Unit × Reg} {T T' : Reg → β → List CollCall}
    (hf : ∀ s t b, s.Alike t → Sim (f s b) (f' t b)) (hT : ∀ s t b, s.Alike t → T s b = T' t b) (l : List β) {s t : Reg}
    (h : s.Alike t) : forEachCalls f T l s = forEachCalls f' T' l t := by
  induction l generalizing s t with
  | nil => rfl
  | cons b l ih =>
    obtain ⟨h1, h2⟩ := hf s t b h
    rw [forEachCalls, forEachCalls, hT s t b h, h1]
    cases (f' t b).1 with
    | ok _ => simp only [ih h2]
    | throw e => rfl
    | ub => rfl

theorem getState_rel {c d : IoColl} (h : c.Alike d) (p : String) : ResRel StateGroup.Alike (c.getState p) (d.getState p) := by
  rw [IoColl.getState, IoColl.getState]
  have := h.states
  generalize c.states = l at this ⊢
  generalize d.states = m at this ⊢
  induction this with
  | nil => exact .throw _
  | @cons a b l m hab _ ih =>
    rw [List.find?_cons, List.find?_cons, hab.pre]
    by_cases hp : b.pre = p
    · simp only [hp, decide_true]
      exact .ok hab
    · simp only [hp, decide_false]
      exact ih

theorem getField_rel {c d : IoColl} (h : c.Alike d) (p : String) : ResRel IoField.Alike (c.getField p) (d.getField p) := by
  rw [IoColl.getField, IoColl.getField]
  have := h.fields
  generalize c.fields = l at this ⊢
  generalize d.fields = m at this ⊢
  induction this with
  | nil => exact .throw _
  | @cons a b l m hab _ ih =>
    rw [List.find?_cons, List.find?_cons, hab.name]
    by_cases hp : b.name = p
    · simp only [hp, decide_true]
      exact .ok hab
    · simp only [hp, decide_false]
      exact ih

theorem stateRound_sim {c d : IoColl} (hc : c.Alike d) {add add' : Reg → StateGroup → Res Unit × Reg}
    (ha : ∀ s t g h, s.Alike t → g.Alike h → Sim (add s g) (add' t h)) (s t : Reg) (p : String) (h : s.Alike t) :
    Sim (Reg.stateRound c add s p) (Reg.stateRound d add' t p) := by
  rw [Reg.stateRound, Reg.stateRound, h.names]
  split
  · exact ⟨rfl, h⟩
  · have := getState_rel hc p
    generalize c.getState p = r at this ⊢
    generalize d.getState p = r' at this ⊢
    cases this with
    | ok hg => exact ha _ _ _ _ h hg
    | throw e => exact ⟨rfl, h⟩
    | ub => exact ⟨rfl, h⟩

theorem fieldRound_sim {c d : IoColl} (hc : c.Alike d) {add add' : Reg → IoField → Res Unit × Reg}
    (ha : ∀ s t f g, s.Alike t → f.Alike g → Sim (add s f) (add' t g)) (s t : Reg) (p : String) (h : s.Alike t) :
    Sim (Reg.fieldRound c add s p) (Reg.fieldRound d add' t p) := by
  rw [Reg.fieldRound, Reg.fieldRound, h.names, h.stateNames]
  split
  · exact ⟨rfl, h⟩
  · split
    · exact ⟨rfl, h⟩
    · have := getField_rel hc p
      generalize c.getField p = r at this ⊢
      generalize d.getField p = r' at this ⊢
      cases this with
      | ok hg => exact ha _ _ _ _ h hg
      | throw e => exact ⟨rfl, h⟩
      | ub => exact ⟨rfl, h⟩

theorem stateCalls_same {c d : IoColl} (hc : c.Alike d) (s t : Reg) (p : String) (h : s.Alike t) :
    Reg.stateCalls c s p = Reg.stateCalls d t p := by
  rw [Reg.stateCalls, Reg.stateCalls, h.names]
  split
  · rfl
  · have := getState_rel hc p
    generalize c.getState p = r at this ⊢
    generalize d.getState p = r' at this ⊢
    cases this <;> rfl

theorem fieldCalls_same {c d : IoColl} (hc : c.Alike d) (s t : Reg) (p : String) (h : s.Alike t) :
    Reg.fieldCalls c s p = Reg.fieldCalls d t p := by
  rw [Reg.fieldCalls, Reg.fieldCalls, h.names, h.stateNames]
  split
  · rfl
  · split
    · rfl
    · have := getField_rel hc p
      generalize c.getField p = r at this ⊢
      generalize d.getField p = r' at this ⊢
      cases this <;> rfl

theorem addGlobal_sim {s t : Reg} (h : s.Alike t) (vname : String) {f g : IoField} (hfg : f.Alike g) (hidden : Bool)
    (hist : Option Nat) (subs : List String) :
    Sim (s.addGlobal vname f hidden hist subs) (t.addGlobal vname g hidden hist subs) := by
  rw [Reg.addGlobal, Reg.addGlobal, h.grid, hfg.nbDomain, hfg.comps, hfg.subPtDims, hfg.ty, h.dims]
  dsimp only
  split
  · split
    · refine ⟨checkGlobal_same ⟨rfl, hfg, rfl, rfl, rfl, rfl⟩, ?_⟩
      refine ⟨h.mode, rfl, ?_, rfl, ?_, h.pixels, h.gfc, h.nbFrames, h.fileDims, h.fileVars, h.numrecs⟩
      · exact List.rel_append h.vars (.cons ⟨⟨rfl, hfg, rfl, rfl, rfl, rfl⟩, rfl⟩ .nil)
      · simp only [h.stateNames]
    · exact ⟨rfl, h.mode, rfl, h.vars, rfl, h.stateNames, h.pixels, h.gfc, h.nbFrames, h.fileDims, h.fileVars, h.numrecs⟩
    · exact ⟨rfl, h.mode, rfl, h.vars, rfl, h.stateNames, h.pixels, h.gfc, h.nbFrames, h.fileDims, h.fileVars, h.numrecs⟩
  · exact ⟨rfl, h.mode, rfl, h.vars, rfl, h.stateNames, h.pixels, h.gfc, h.nbFrames, h.fileDims, h.fileVars, h.numrecs⟩
  · exact ⟨rfl, h.mode, rfl, h.vars, rfl, h.stateNames, h.pixels, h.gfc, h.nbFrames, h.fileDims, h.fileVars, h.numrecs⟩

theorem localDims_same {f g : IoField} (hfg : f.Alike g) (vname : String) (hist : Option Nat) (total : Int) :
    localDims vname f hist total = localDims vname g hist total := by
  rw [localDims, localDims, hfg.comps, hfg.subPtDims]

theorem addLocal_sim {s t : Reg} (h : s.Alike t) (vname : String) {f g : IoField} (hfg : f.Alike g)
    (hist : Option Nat) (total : Int) (lname : String) (marks marks' : List Int) (subs : List String) :
    Sim (s.addLocal vname f hist total lname marks subs) (t.addLocal vname g hist total lname marks' subs) := by
  have hd := localDims_same hfg vname hist total
  have hv : (⟨vname, f, hist, localDims vname f hist total, false, lname⟩ : Var).Alike
      ⟨vname, g, hist, localDims vname g hist total, false, lname⟩ := ⟨rfl, hfg, rfl, hd, rfl, rfl⟩
  rw [Reg.addLocal, Reg.addLocal, hfg.ty]
  dsimp only
  have e : addDims s.dims (localDims vname f hist total) = addDims t.dims (localDims vname g hist total) := by
    rw [h.dims, hd]
  split
  · refine ⟨checkLocal_same hv rfl rfl marks marks', ?_⟩
    refine ⟨h.mode, e, ?_, h.grid, ?_, h.pixels, h.gfc, h.nbFrames, h.fileDims, h.fileVars, h.numrecs⟩
    · exact List.rel_append h.vars (.cons ⟨hv, rfl⟩ .nil)
    · simp only [h.stateNames]
  · exact ⟨rfl, h.mode, e, h.vars, h.grid, h.stateNames, h.pixels, h.gfc, h.nbFrames, h.fileDims, h.fileVars, h.numrecs⟩
  · exact ⟨rfl, h.mode, e, h.vars, h.grid, h.stateNames, h.pixels, h.gfc, h.nbFrames, h.fileDims, h.fileVars, h.numrecs⟩

theorem registerGlobal_sim {s t : Reg} (h : s.Alike t) {c d : IoColl} (hc : c.Alike d)
    {dom dom' : List Int × List Int × List Int} (hdom : DomAlike dom dom') (fs ps : List String) :
    Sim (s.registerGlobal c dom fs ps) (t.registerGlobal d dom' fs ps) := by
  rw [Reg.registerGlobal, Reg.registerGlobal, h.gfc]
  refine andThen_sim (forEach_sim (stateRound_sim hc fun s t g g' hst hg => ?_) ps h) fun s1 t1 _ _ h1 => ?_
  · rw [hg.pre, hg.nbMem, hg.subNames]
    exact addGlobal_sim hst _ hg.field _ _ _
  · refine andThen_sim (forEach_sim (fieldRound_sim hc fun s t f f' hst hf => ?_) fs h1) fun s2 t2 _ _ h2 => ?_
    · rw [hf.name]
      exact addGlobal_sim hst _ hf _ _ _
    · refine ⟨rfl, ?_⟩
      rcases h2.pixels with ⟨e1, e2⟩ | ⟨x, y, e1, e2, e3⟩
      · simp only [e1, e2, Option.isSome_none, Bool.false_eq_true, if_false]
        exact ⟨h2.mode, h2.dims, h2.vars, h2.grid, h2.stateNames, .inr ⟨dom, dom', rfl, rfl, hdom⟩, h2.gfc, h2.nbFrames,
          h2.fileDims, h2.fileVars, h2.numrecs⟩
      · simp only [e1, e2, Option.isSome_some, if_true]
        exact h2

theorem colMajorStrides_length' (l : List Int) : (colMajorStrides l).length = l.length := by
  simp [colMajorStrides_length]

theorem pixelField_alike {dom dom' : List Int × List Int × List Int} (h : DomAlike dom dom') (l : String) :
    (pixelField l dom).Alike (pixelField l dom') := by
  refine ⟨rfl, rfl, rfl, rfl, rfl, h.1, rfl, h.2.1, ?_, h.2.2, .inl rfl, .inl rfl, by simp [pixelField]⟩
  simp only [pixelField, colMajorStrides_length']
  exact h.2.1

theorem setMark_length {marks m : List Int} {id v : Int} (h : setMark marks id v = .ok m) : m.length = marks.length := by
  rw [setMark] at h
  split at h
  · cases h; simp
  · cases h

theorem markLoop_defined {ids : List Int} {v : Int} {marks : List Int} (h : ∀ id ∈ ids, 0 ≤ id ∧ id < marks.length) :
    ∃ m, markLoop ids v marks = .ok m := by
  induction ids generalizing v marks with
  | nil => exact ⟨_, rfl⟩
  | cons id ids ih =>
    have h1 : setMark marks id v = .ok (marks.set id.toNat v) := by rw [setMark, if_pos (h id (by simp))]
    rw [markLoop, h1, Res.ok_bind]
    exact ih fun x hx => by rw [List.length_set]; exact h x (by simp [hx])

theorem markPixels_ok {ids : List Int} {sh : List Int} (h : ∀ id ∈ ids, 0 ≤ id ∧ id < getSize sh) (off : Int) :
    ∃ m, markPixels (getSize sh).toNat off ids = .ok m :=
  markLoop_defined fun id hid => ⟨(h id hid).1, by have := h id hid; rw [List.length_replicate]; omega⟩

/-- The pixels of a local collection lie in the subdomain of the process. -/
def Inside (s : Reg) (ids : List Int) : Prop := ∀ dom, s.pixels = some dom → ∀ id ∈ ids, 0 ≤ id ∧ id < getSize dom.2.1

theorem local_marks {s : Reg} {ids : List Int} (hi : Inside s ids) {dom : List Int × List Int × List Int}
    (hd : s.pixels = some dom) (off : Int) :
    ∃ m, (if s.mode = .write ∨ s.mode = .overwrite then markPixels (getSize dom.2.1).toNat off ids
      else .ok (List.replicate (getSize dom.2.1).toNat (-1 : Int))) = .ok m := by
  split
  · exact markPixels_ok (hi dom hd) off
  · exact ⟨_, rfl⟩

theorem Reg.Alike.withGfc {s t : Reg} (h : s.Alike t) (l : String) (m m' : List Int) :
    Reg.Alike { s with gfc := s.gfc ++ [(l, m)] } { t with gfc := t.gfc ++ [(l, m')] } :=
  ⟨h.mode, h.dims, h.vars, h.grid, h.stateNames, h.pixels, by simp [h.gfc], h.nbFrames, h.fileDims, h.fileVars, h.numrecs⟩

theorem registerLocal_sim {s t : Reg} (h : s.Alike t) {c d : IoColl} (hc : c.Alike d) {ids ids' : List Int}
    (hi : Inside s ids) (hi' : Inside t ids') (total off off' : Int) (fs ps : List String) :
    Sim (s.registerLocal c ids total off fs ps) (t.registerLocal d ids' total off' fs ps) ∧
    s.localCalls c ids total off fs ps = t.localCalls d ids' total off' fs ps := by
  rw [Reg.registerLocal, Reg.registerLocal, Reg.localCalls, Reg.localCalls]
  rcases h.pixels with ⟨e1, e2⟩ | ⟨dom, dom', e1, e2, e3⟩
  · simp only [e1, e2]
    exact ⟨⟨rfl, h⟩, trivial⟩
  · obtain ⟨m, hm⟩ := local_marks hi e1 off
    obtain ⟨m', hm'⟩ := local_marks hi' e2 off'
    simp only [e1, e2, hm, hm', h.gfc, hc.name]
    split
    · exact ⟨⟨rfl, h⟩, rfl⟩
    · have hpix : (⟨"", true, [pixelField d.name dom], [], .global dom.1 dom.2.1 dom.2.2⟩ : IoColl).Alike
          ⟨"", true, [pixelField d.name dom'], [], .global dom'.1 dom'.2.1 dom'.2.2⟩ :=
        ⟨rfl, rfl, .cons (pixelField_alike e3 _) .nil, .nil, by rw [e3.1]; exact .global e3.2.1 e3.2.2⟩
      have hg := registerGlobal_sim (h.withGfc d.name m m') hpix e3 [d.name] []
      simp only [e1, e2] at hg
      have hS : ∀ (s t : Reg) (b : String), s.Alike t →
          Sim (Reg.stateRound c (fun s g => s.addLocal g.pre g.field (some g.nbMem) total d.name m g.subNames) s b)
            (Reg.stateRound d (fun s g => s.addLocal g.pre g.field (some g.nbMem) total d.name m' g.subNames) t b) :=
        stateRound_sim hc fun s t g g' hst hg => by
          rw [hg.pre, hg.nbMem, hg.subNames]
          exact addLocal_sim hst _ hg.field _ _ _ _ _ _
      have hF : ∀ (s t : Reg) (b : String), s.Alike t →
          Sim (Reg.fieldRound c (fun s f => s.addLocal f.name f none total d.name m []) s b)
            (Reg.fieldRound d (fun s f => s.addLocal f.name f none total d.name m' []) t b) :=
        fieldRound_sim hc fun s t f f' hst hf => by
          rw [hf.name]
          exact addLocal_sim hst _ hf _ _ _ _ _ _
      refine ⟨andThen_sim hg fun s2 t2 _ _ h2 => andThen_sim (forEach_sim hS ps h2) fun s3 t3 _ _ h3 =>
        forEach_sim hF fs h3, ?_⟩
      refine thenCalls_same (by rw [h.mode]) hg fun s2 t2 _ _ h2 => ?_
      exact thenCalls_same (forEachCalls_same hS (stateCalls_same hc) ps h2) (forEach_sim hS ps h2) fun s3 t3 _ _ h3 =>
        forEachCalls_same hF (fieldCalls_same hc) fs h3

theorem dataType_same {v w : Var} (h : v.Alike w) : v.dataType = w.dataType := by
  rw [Var.dataType, Var.dataType, h.field.ty]

theorem defineVars_sim {l m : List (Var × Bool)} (h : List.Forall₂ MarkedAlike l m) (file : List String) :
    (defineVars l file).1 = (defineVars m file).1 ∧
    List.Forall₂ MarkedAlike (defineVars l file).2.1 (defineVars m file).2.1 ∧
    (defineVars l file).2.2 = (defineVars m file).2.2 ∧ defineVarsCalls l file = defineVarsCalls m file := by
  induction h generalizing file with
  | nil => exact ⟨rfl, .nil, rfl, rfl⟩
  | @cons a b l m hab hlm ih =>
    obtain ⟨v, x⟩ := a
    obtain ⟨w, y⟩ := b
    obtain ⟨h1, h2⟩ := hab
    dsimp only at h1 h2
    subst h2
    cases x with
    | true =>
      obtain ⟨g1, g2, g3, g4⟩ := ih file
      exact ⟨g1, .cons ⟨h1, rfl⟩ g2, g3, g4⟩
    | false =>
      simp only [defineVars, defineVarsCalls, h1.name, dataType_same h1, h1.dims]
      split
      · exact ⟨rfl, .cons ⟨h1, rfl⟩ hlm, rfl, rfl⟩
      · obtain ⟨g1, g2, g3, g4⟩ := ih (file ++ [w.name])
        exact ⟨g1, .cons ⟨h1, rfl⟩ g2, g3, by rw [g4]⟩

theorem inquireVars_sim {l m : List (Var × Bool)} (h : List.Forall₂ MarkedAlike l m) (file : List String) :
    (inquireVars file l).1 = (inquireVars file m).1 ∧
    List.Forall₂ MarkedAlike (inquireVars file l).2 (inquireVars file m).2 := by
  induction h with
  | nil => exact ⟨rfl, .nil⟩
  | @cons a b l m hab hlm ih =>
    obtain ⟨v, x⟩ := a
    obtain ⟨w, y⟩ := b
    obtain ⟨h1, h2⟩ := hab
    dsimp only at h1 h2
    subst h2
    obtain ⟨g1, g2⟩ := ih
    cases x with
    | true => exact ⟨g1, .cons ⟨h1, rfl⟩ g2⟩
    | false =>
      simp only [inquireVars, h1.name]
      split
      · exact ⟨g1, .cons ⟨h1, rfl⟩ g2⟩
      · exact ⟨rfl, .cons ⟨h1, rfl⟩ hlm⟩

theorem defineAtts_same {l m : List (Var × Bool)} (h : List.Forall₂ MarkedAlike l m) :
    defineAttsCalls l = defineAttsCalls m := by
  rw [defineAttsCalls, defineAttsCalls]
  induction h with
  | nil => rfl
  | cons hab _ ih => rw [List.flatMap_cons, List.flatMap_cons, ih, attNames, attNames, hab.1.field.isGlobal, hab.1.name]

theorem define_sim {s t : Reg} (h : s.Alike t) : Sim s.define t.define ∧ s.defineCalls = t.defineCalls := by
  rw [Reg.define, Reg.define, Reg.defineCalls, Reg.defineCalls]
  have h1 : Sim ((defineDims s.dims s.fileDims).1,
        { s with dims := (defineDims s.dims s.fileDims).2.1, fileDims := (defineDims s.dims s.fileDims).2.2 })
      ((defineDims t.dims t.fileDims).1,
        { t with dims := (defineDims t.dims t.fileDims).2.1, fileDims := (defineDims t.dims t.fileDims).2.2 }) := by
    rw [h.dims, h.fileDims]
    exact ⟨rfl, h.mode, rfl, h.vars, h.grid, h.stateNames, h.pixels, h.gfc, h.nbFrames, rfl, h.fileVars, h.numrecs⟩
  have h2 : ∀ {s1 t1 : Reg}, s1.Alike t1 → Sim ((defineVars s1.vars s1.fileVars).1,
        { s1 with vars := (defineVars s1.vars s1.fileVars).2.1, fileVars := (defineVars s1.vars s1.fileVars).2.2 })
      ((defineVars t1.vars t1.fileVars).1,
        { t1 with vars := (defineVars t1.vars t1.fileVars).2.1, fileVars := (defineVars t1.vars t1.fileVars).2.2 }) := by
    intro s1 t1 h1
    obtain ⟨g1, g2, g3, -⟩ := defineVars_sim h1.vars t1.fileVars
    rw [h1.fileVars]
    exact ⟨g1, h1.mode, h1.dims, g2, h1.grid, h1.stateNames, h1.pixels, h1.gfc, h1.nbFrames, h1.fileDims, g3, h1.numrecs⟩
  refine ⟨andThen_sim h1 fun s1 t1 _ _ h1 => h2 h1, ?_⟩
  refine thenCalls_same (by rw [h.dims, h.fileDims]) h1 fun s1 t1 _ _ h1 => ?_
  refine thenCalls_same ?_ (h2 h1) fun s2 t2 _ _ h2 => ?_
  · rw [h1.fileVars]
    exact (defineVars_sim h1.vars t1.fileVars).2.2.2
  · rw [defineAtts_same h2.vars]

theorem inquire_sim {s t : Reg} (h : s.Alike t) : Sim s.inquire t.inquire := by
  rw [Reg.inquire, Reg.inquire, h.fileDims, h.dims, h.numrecs, h.nbFrames]
  split
  · exact ⟨rfl, h⟩
  · refine andThen_sim ⟨rfl, h.mode, rfl, h.vars, h.grid, h.stateNames, h.pixels, h.gfc, rfl, rfl, h.fileVars,
      rfl⟩ fun s1 t1 _ _ h1 => ?_
    have hl : s1.vars.length = t1.vars.length := h1.vars.length_eq
    rw [h1.fileVars, hl]
    split
    · exact ⟨rfl, h1⟩
    · obtain ⟨g1, g2⟩ := inquireVars_sim h1.vars t1.fileVars
      exact ⟨g1, h1.mode, h1.dims, g2, h1.grid, h1.stateNames, h1.pixels, h1.gfc, h1.nbFrames, h1.fileDims, rfl,
        h1.numrecs⟩

theorem fieldNames_same {c d : IoColl} (h : c.Alike d) : c.fields.map IoField.name = d.fields.map IoField.name := by
  have := h.fields
  generalize c.fields = l at this ⊢
  generalize d.fields = m at this ⊢
  induction this with
  | nil => rfl
  | cons hab _ ih => simp [ih, hab.name]

theorem stateNames_same {c d : IoColl} (h : c.Alike d) : c.states.map StateGroup.pre = d.states.map StateGroup.pre := by
  have := h.states
  generalize c.states = l at this ⊢
  generalize d.states = m at this ⊢
  induction this with
  | nil => rfl
  | cons hab _ ih => simp [ih, hab.pre]

/-- The pixels of the collection lie in the subdomain, if it is a local one. -/
def CollInside (s : Reg) (c : IoColl) : Prop := ∀ ids total off, c.domain = .isLocal ids total off → Inside s ids

theorem domain_sim {s t : Reg} (h : s.Alike t) {c d : IoColl} (hc : c.Alike d) (hi : CollInside s c) (hi' : CollInside t d)
    (fs ps : List String) :
    Sim (s.registerDomain c fs ps) (t.registerDomain d fs ps) ∧ s.domainCalls c fs ps = t.domainCalls d fs ps := by
  rw [Reg.registerDomain, Reg.registerDomain, Reg.domainCalls, Reg.domainCalls]
  have hd := hc.domain
  generalize e : c.domain = x at hd
  generalize e' : d.domain = y at hd
  cases hd with
  | @global nb sh loc sh' loc' h1 h2 =>
    exact ⟨registerGlobal_sim h hc (dom := (nb, sh, loc)) (dom' := (nb, sh', loc')) ⟨rfl, h1, h2⟩ fs ps, rfl⟩
  | isLocal => exact registerLocal_sim h hc (hi _ _ _ e) (hi' _ _ _ e') _ _ _ fs ps

theorem register_eq (s : Reg) (c : IoColl) (fieldNames prefixes : List String) :
    s.register c fieldNames prefixes =
      if ¬ c.initialised then (.throw .fileIOError, s)
      else
        let fs := resolve "REGISTER_ALL_FIELDS" (c.fields.map IoField.name) fieldNames
        let ps := resolve "REGISTER_ALL_STATE_FIELDS" (c.states.map StateGroup.pre) prefixes
        andThen (s.registerDomain c fs ps) fun s1 =>
        if s1.mode = .write ∨ s1.mode = .overwrite then s1.define else s1.inquire := by
  rfl

theorem register_sim {s t : Reg} (h : s.Alike t) {c d : IoColl} (hc : c.Alike d) (hi : CollInside s c)
    (hi' : CollInside t d) (fs ps : List String) (define : Bool) :
    Sim (s.register c fs ps) (t.register d fs ps) ∧
    s.registerCalls define c fs ps = t.registerCalls define d fs ps ∧
    s.defineMode define c fs ps = t.defineMode define d fs ps := by
  rw [register_eq, register_eq, Reg.registerCalls, Reg.registerCalls, Reg.defineMode, Reg.defineMode, hc.initialised]
  split
  · exact ⟨⟨rfl, h⟩, rfl, rfl⟩
  · dsimp only
    rw [fieldNames_same hc, stateNames_same hc]
    obtain ⟨h1, h2⟩ := domain_sim h hc hi hi' (resolve "REGISTER_ALL_FIELDS" (d.fields.map IoField.name) fs)
      (resolve "REGISTER_ALL_STATE_FIELDS" (d.states.map StateGroup.pre) ps)
    refine ⟨andThen_sim h1 fun s1 t1 _ _ h3 => ?_, thenCalls_same h2 h1 fun s1 t1 _ _ h3 => ?_, ?_⟩
    · rw [h3.mode]
      split
      · exact (define_sim h3).1
      · exact inquire_sim h3
    · rw [h3.mode, (define_sim h3).2]
    · rw [h1.1, h1.2.mode, (define_sim h1.2).1.1]

/-! ### The subdomain of the process -/

theorem forEach_pixels {β : Type} {f : Reg → β → Res Unit × Reg} (hf : ∀ s b, (f s b).2.pixels = s.pixels) (l : List β)
    (s : Reg) : (forEach f l s).2.pixels = s.pixels := by
  induction l generalizing s with
  | nil => rfl
  | cons b l ih =>
    rw [forEach, andThen]
    split
    · rw [ih, hf]
    · exact hf s b
    · exact hf s b

theorem andThen_pixels {r : Res Unit × Reg} {k : Reg → Res Unit × Reg} (P : Option (List Int × List Int × List Int) → Prop)
    (h : P r.2.pixels) (hk : ∀ s, s = r.2 → P (k s).2.pixels) : P (andThen r k).2.pixels := by
  rw [andThen]
  split
  · exact hk _ rfl
  · exact h
  · exact h

theorem addGlobal_pixels (s : Reg) (vname : String) (f : IoField) (hidden : Bool) (hist : Option Nat) (subs : List String) :
    (s.addGlobal vname f hidden hist subs).2.pixels = s.pixels := by
  rw [Reg.addGlobal]
  dsimp only
  split
  · split <;> rfl
  · rfl
  · rfl

theorem addLocal_pixels (s : Reg) (vname : String) (f : IoField) (hist : Option Nat) (total : Int) (lname : String)
    (marks : List Int) (subs : List String) : (s.addLocal vname f hist total lname marks subs).2.pixels = s.pixels := by
  rw [Reg.addLocal]
  dsimp only
  split <;> rfl

theorem stateRound_pixels {c : IoColl} {add : Reg → StateGroup → Res Unit × Reg}
    (ha : ∀ s g, (add s g).2.pixels = s.pixels) (s : Reg) (p : String) : (Reg.stateRound c add s p).2.pixels = s.pixels := by
  rw [Reg.stateRound]
  split
  · rfl
  · split
    · exact ha _ _
    · rfl
    · rfl

theorem fieldRound_pixels {c : IoColl} {add : Reg → IoField → Res Unit × Reg}
    (ha : ∀ s g, (add s g).2.pixels = s.pixels) (s : Reg) (p : String) : (Reg.fieldRound c add s p).2.pixels = s.pixels := by
  rw [Reg.fieldRound]
  split
  · rfl
  · split
    · rfl
    · split
      · exact ha _ _
      · rfl
      · rfl

theorem registerGlobal_pixels (s : Reg) (c : IoColl) (dom : List Int × List Int × List Int) (fs ps : List String) :
    (s.registerGlobal c dom fs ps).2.pixels = s.pixels ∨
    s.pixels = none ∧ (s.registerGlobal c dom fs ps).2.pixels = some dom := by
  rw [Reg.registerGlobal]
  have h1 : ∀ hn : List String, (forEach (Reg.stateRound c fun s g => s.addGlobal g.pre g.field false (some g.nbMem) g.subNames) ps
      s).2.pixels = s.pixels := fun _ => forEach_pixels (stateRound_pixels fun s g => addGlobal_pixels ..) ps s
  refine andThen_pixels (fun o => o = s.pixels ∨ s.pixels = none ∧ o = some dom) (.inl (h1 [])) fun s1 e1 => ?_
  have h2 : ∀ s1 : Reg, (forEach (Reg.fieldRound c fun s' f => s'.addGlobal f.name f
      (decide (f.name ∈ s.gfc.map Prod.fst)) none []) fs s1).2.pixels = s1.pixels :=
    fun s1 => forEach_pixels (fieldRound_pixels fun s g => addGlobal_pixels ..) fs s1
  have h3 : s1.pixels = s.pixels := by rw [e1]; exact h1 []
  refine andThen_pixels (fun o => o = s.pixels ∨ s.pixels = none ∧ o = some dom) (.inl ((h2 s1).trans h3)) fun s2 e2 => ?_
  have h4 : s2.pixels = s.pixels := by rw [e2]; exact (h2 s1).trans h3
  split
  · exact .inl h4
  · rename_i hn
    exact .inr ⟨by rw [← h4]; simpa using hn, rfl⟩

theorem registerLocal_pixels (s : Reg) (c : IoColl) (ids : List Int) (total off : Int) (fs ps : List String) :
    (s.registerLocal c ids total off fs ps).2.pixels = s.pixels := by
  rw [Reg.registerLocal]
  split
  · rfl
  · rename_i dom hdom
    split
    · rfl
    · extract_lets none' marks pix
      cases marks with
      | ub => rfl
      | throw e => rfl
      | ok m =>
        have h1 : ∀ (pix : IoColl) (l : String), (Reg.registerGlobal { s with gfc := s.gfc ++ [(l, m)] } pix dom [l] []).2.pixels =
            s.pixels := by
          intro pix l
          rcases registerGlobal_pixels { s with gfc := s.gfc ++ [(l, m)] } pix dom [l] [] with h | ⟨h, -⟩
          · exact h
          · rw [hdom] at h; cases h
        refine andThen_pixels (· = s.pixels) (h1 _ _) fun s2 e2 => ?_
        have h2 : s2.pixels = s.pixels := by rw [e2]; exact h1 _ _
        have h3 := forEach_pixels (f := Reg.stateRound c fun s g =>
          s.addLocal g.pre g.field (some g.nbMem) total c.name m g.subNames)
          (stateRound_pixels fun s g => addLocal_pixels ..) ps s2
        refine andThen_pixels (· = s.pixels) (h3.trans h2) fun s3 e3 => ?_
        rw [forEach_pixels (fieldRound_pixels fun s g => addLocal_pixels ..), e3]
        exact h3.trans h2

theorem define_pixels (s : Reg) : s.define.2.pixels = s.pixels := by
  rw [Reg.define]
  exact andThen_pixels (· = s.pixels) rfl fun s1 e1 => by rw [e1]

theorem inquire_pixels (s : Reg) : s.inquire.2.pixels = s.pixels := by
  rw [Reg.inquire]
  split
  · rfl
  · refine andThen_pixels (· = s.pixels) rfl fun s1 e1 => ?_
    split <;> rw [e1]

theorem register_pixels (s : Reg) (c : IoColl) (fs ps : List String) :
    (s.register c fs ps).2.pixels = s.pixels ∨
    ∃ nb sh loc, c.domain = .global nb sh loc ∧ (s.register c fs ps).2.pixels = some (nb, sh, loc) := by
  rw [register_eq]
  split
  · exact .inl rfl
  · dsimp only
    generalize resolve "REGISTER_ALL_FIELDS" (c.fields.map IoField.name) fs = fs
    generalize resolve "REGISTER_ALL_STATE_FIELDS" (c.states.map StateGroup.pre) ps = ps
    have h1 : (s.registerDomain c fs ps).2.pixels = s.pixels ∨
        ∃ nb sh loc, c.domain = .global nb sh loc ∧ (s.registerDomain c fs ps).2.pixels = some (nb, sh, loc) := by
      rw [Reg.registerDomain]
      split
      · rename_i nb sh loc e
        rcases registerGlobal_pixels s c (nb, sh, loc) fs ps with h | ⟨-, h⟩
        · exact .inl h
        · exact .inr ⟨nb, sh, loc, e, h⟩
      · exact .inl (registerLocal_pixels ..)
    refine andThen_pixels (fun o => o = s.pixels ∨ ∃ nb sh loc, c.domain = .global nb sh loc ∧ o = some (nb, sh, loc)) h1
      fun s1 e1 => ?_
    split
    · rw [define_pixels, e1]; exact h1
    · rw [inquire_pixels, e1]; exact h1

/-! ### Sequences of calls -/

/-- All subdomains that a process may have are large enough for its local collections. -/
structure ReadyFor (s : Reg) (ops : List RegOp) : Prop where
  placed : Placed ops
  inside : ∀ c fs ps, RegOp.register c fs ps ∈ ops → CollInside s c

theorem ReadyFor.next {s : Reg} {op : RegOp} {ops : List RegOp} (h : ReadyFor s (op :: ops)) :
    ReadyFor (s.step op).2 ops := by
  refine ⟨fun c fs ps c' fs' ps' ids total off nb sh loc hc hc' =>
    h.placed c fs ps c' fs' ps' ids total off nb sh loc (by simp [hc]) (by simp [hc']), ?_⟩
  intro c fs ps hc ids total off hd dom hdom
  cases op with
  | appendFrame => exact h.inside c fs ps (by simp [hc]) ids total off hd dom hdom
  | register c' fs' ps' =>
    rcases register_pixels s c' fs' ps' with e | ⟨nb, sh, loc, e1, e2⟩
    · exact h.inside c fs ps (by simp [hc]) ids total off hd dom (e ▸ hdom)
    · have : dom = (nb, sh, loc) := by
        have h3 : (s.step (.register c' fs' ps')).2.pixels = some (nb, sh, loc) := e2
        rw [hdom] at h3; exact Option.some.inj h3
      rw [this]
      exact h.placed c fs ps c' fs' ps' ids total off nb sh loc (by simp [hc]) (by simp) hd e1

theorem run_sim {ops ops' : List RegOp} (hops : List.Forall₂ RegOp.Alike ops ops') {s t : Reg} (h : s.Alike t)
    (hs : ReadyFor s ops) (ht : ReadyFor t ops') (define : Bool) :
    (s.run ops).1 = (t.run ops').1 ∧ (s.run ops).2.Alike (t.run ops').2 ∧
    Reg.runCalls define s ops = Reg.runCalls define t ops' := by
  induction hops generalizing s t define with
  | nil => exact ⟨rfl, h, rfl⟩
  | @cons op op' ops ops' hop _ ih =>
    cases hop with
    | @register c d fs ps hc =>
      obtain ⟨⟨h1, h2⟩, h3, h4⟩ := register_sim h hc (hs.inside c fs ps (by simp)) (ht.inside d fs ps (by simp)) fs ps define
      obtain ⟨g1, g2, g3⟩ := ih (define := s.defineMode define c fs ps) h2 hs.next ht.next
      refine ⟨?_, g2, ?_⟩
      · show (s.register c fs ps).1 :: ((s.register c fs ps).2.run ops).1 =
          (t.register d fs ps).1 :: ((t.register d fs ps).2.run ops').1
        rw [h1]
        exact congrArg _ g1
      · rw [Reg.runCalls, Reg.runCalls, h3, ← h4]
        exact congrArg _ g3
    | appendFrame =>
      have h2 : (s.step .appendFrame).2.Alike (t.step .appendFrame).2 :=
        ⟨h.mode, h.dims, h.vars, h.grid, h.stateNames, h.pixels, h.gfc, by simp [Reg.step, h.nbFrames], h.fileDims,
          h.fileVars, h.numrecs⟩
      obtain ⟨g1, g2, g3⟩ := ih (define := define) h2 hs.next ht.next
      exact ⟨congrArg (List.cons (Res.ok ())) g1, g2, g3⟩

/-! ### Waiting -/

theorem meets_same {κ : Type} {n : Nat} (hn : 0 < n) {p : Fin n → List κ} :
    AllReturn p ↔ ∀ i j, p i = p j := by
  constructor
  · intro h
    have : ∀ {p q : Fin n → List κ}, Meets p q → (∀ i, q i = []) → ∀ i j, p i = p j := by
      intro p q h
      induction h with
      | refl => intro hq i j; rw [hq i, hq j]
      | @head p q r h1 _ ih =>
        intro hr i j
        obtain ⟨c, h2, h3⟩ := h1
        have h4 := ih hr i j
        rw [h3] at h4
        obtain ⟨a, ha⟩ := h2 i
        obtain ⟨b, hb⟩ := h2 j
        dsimp only at h4
        rw [ha, hb] at h4 ⊢
        exact congrArg _ h4
    exact this h fun _ => rfl
  · intro h
    have : ∀ (l : List κ), Meets (fun _ : Fin n => l) fun _ => [] := by
      intro l
      induction l with
      | nil => exact .refl
      | cons c l ih => exact .head ⟨c, fun i => ⟨l, rfl⟩, rfl⟩ ih
    have e : p = fun _ => p ⟨0, hn⟩ := funext fun i => h i _
    rw [e]
    exact this _

end Verif.NetCDF

namespace Verif.NetCDF
open Verif Verif.Ccoord Verif.Layout Verif.FileIO

theorem waits_of_ne {κ : Type} {n : Nat} (hn : 0 < n) {p : Fin n → List κ} (h : ¬ AllReturn p) :
    ∃ q, Meets p q ∧ Waits q := by
  have key : ∀ (k : Nat) (p : Fin n → List κ), (p ⟨0, hn⟩).length ≤ k → ¬ AllReturn p → ∃ q, Meets p q ∧ Waits q := by
    intro k
    induction k with
    | zero =>
      intro p hk hp
      refine ⟨p, .refl, ?_, ?_⟩
      · by_contra hne
        push Not at hne
        exact hp ((meets_same hn).2 fun i j => by rw [hne i, hne j])
      · rintro q ⟨c, hc, -⟩
        obtain ⟨r, hr⟩ := hc ⟨0, hn⟩
        rw [hr] at hk
        simp at hk
    | succ k ih =>
      intro p hk hp
      by_cases hm : ∃ q, Meet p q
      · obtain ⟨q, hq⟩ := hm
        have hq' := hq
        obtain ⟨c, hc, e⟩ := hq'
        have hnr : ¬ AllReturn q := fun hr => hp (.head hq hr)
        obtain ⟨r, h1, h2⟩ := ih q (by
          obtain ⟨t, ht⟩ := hc ⟨0, hn⟩
          rw [ht] at hk
          rw [e]
          simpa [ht] using hk) hnr
        exact ⟨r, .head hq h1, h2⟩
      · refine ⟨p, .refl, ?_, fun q hq => hm ⟨q, hq⟩⟩
        by_contra hne
        push Not at hne
        exact hp ((meets_same hn).2 fun i j => by rw [hne i, hne j])
  exact key _ p le_rfl h

/-! ### What the calls define -/

/-- The dimension that a call defines. -/
def CollCall.dim? : CollCall → Option Dim
  | .defDim d => some d
  | _ => none

/-- The variable that a call defines. -/
def CollCall.var? : CollCall → Option String
  | .defVar n _ _ => some n
  | _ => none

/-- The call adds up numbers only. -/
def CollCall.isSum : CollCall → Bool
  | .sum => true
  | .cumulativeSum => true
  | _ => false

theorem defineDims_calls {ds : List (Dim × Bool)} {file : List Dim} (h : (defineDims ds file).1 = .ok ()) :
    (defineDims ds file).2.2 = file ++ (defineDimsCalls ds file).filterMap CollCall.dim? ∧
    (defineDimsCalls ds file).filterMap CollCall.var? = [] ∧ .sum ∉ defineDimsCalls ds file := by
  induction ds generalizing file with
  | nil => simp [defineDims, defineDimsCalls]
  | cons a ds ih =>
    obtain ⟨d, b⟩ := a
    cases b with
    | true => exact ih h
    | false =>
      simp only [defineDims, defineDimsCalls] at h ⊢
      split
      · rename_i hc
        rw [if_pos hc] at h; cases h
      · rename_i hc
        rw [if_neg hc] at h
        obtain ⟨h1, h2, h3⟩ := ih h
        refine ⟨?_, ?_, ?_⟩
        · rw [h1]; simp [CollCall.dim?]
        · rw [List.filterMap_cons_none rfl, h2]
        · simp [h3]

theorem defineVars_calls {vs : List (Var × Bool)} {file : List String} (h : (defineVars vs file).1 = .ok ()) :
    (defineVars vs file).2.2 = file ++ (defineVarsCalls vs file).filterMap CollCall.var? ∧
    (defineVarsCalls vs file).filterMap CollCall.dim? = [] ∧ .sum ∉ defineVarsCalls vs file := by
  induction vs generalizing file with
  | nil => simp [defineVars, defineVarsCalls]
  | cons a ds ih =>
    obtain ⟨d, b⟩ := a
    cases b with
    | true => exact ih h
    | false =>
      simp only [defineVars, defineVarsCalls] at h ⊢
      split
      · rename_i hc
        rw [if_pos hc] at h; cases h
      · rename_i hc
        rw [if_neg hc] at h
        obtain ⟨h1, h2, h3⟩ := ih h
        refine ⟨?_, ?_, ?_⟩
        · rw [h1]; simp [CollCall.var?]
        · rw [List.filterMap_cons_none rfl, h2]
        · simp [h3]

theorem defineAtts_calls (vs : List (Var × Bool)) : (defineAttsCalls vs).filterMap CollCall.dim? = [] ∧
    (defineAttsCalls vs).filterMap CollCall.var? = [] ∧ .sum ∉ defineAttsCalls vs := by
  have : ∀ x ∈ defineAttsCalls vs, ∃ a b, x = .putAtt a b := by
    intro x hx
    obtain ⟨v, -, hx⟩ := List.mem_flatMap.1 hx
    obtain ⟨a, -, rfl⟩ := List.mem_map.1 hx
    exact ⟨_, _, rfl⟩
  refine ⟨?_, ?_, ?_⟩
  · refine List.filterMap_eq_nil_iff.2 fun x hx => ?_
    obtain ⟨a, b, rfl⟩ := this x hx
    rfl
  · refine List.filterMap_eq_nil_iff.2 fun x hx => ?_
    obtain ⟨a, b, rfl⟩ := this x hx
    rfl
  · intro hx
    obtain ⟨a, b, h⟩ := this _ hx
    cases h

theorem andThen_okc {r : Res Unit × Reg} {k : Reg → Res Unit × Reg} (h : (andThen r k).1 = .ok ()) :
    r.1 = .ok () ∧ andThen r k = k r.2 := by
  rw [andThen] at h ⊢
  split at h
  · rename_i e
    exact ⟨e, by simp only [e]⟩
  · cases h
  · cases h

theorem thenCalls_ok {l : List CollCall} {r : Res Unit × Reg} {k : Reg → List CollCall} (h : r.1 = .ok ()) :
    thenCalls l r k = l ++ k r.2 := by
  rw [thenCalls, h]

theorem define_calls {s : Reg} (h : s.define.1 = .ok ()) :
    s.define.2.fileDims = s.fileDims ++ s.defineCalls.filterMap CollCall.dim? ∧
    s.define.2.fileVars = s.fileVars ++ s.defineCalls.filterMap CollCall.var? ∧
    s.defineCalls.getLast? = some .enddef ∧ .sum ∉ s.defineCalls ∧
    ∃ pre, s.defineCalls = pre ++ defineAttsCalls s.define.2.vars ++ [.enddef] ∧ ∀ v a, .putAtt v a ∉ pre := by
  obtain ⟨h1, h2⟩ := andThen_okc h
  have e : s.define = ((defineVars s.vars s.fileVars).1,
      { s with dims := (defineDims s.dims s.fileDims).2.1, fileDims := (defineDims s.dims s.fileDims).2.2,
               vars := (defineVars s.vars s.fileVars).2.1, fileVars := (defineVars s.vars s.fileVars).2.2 }) := h2
  have h3 : (defineVars s.vars s.fileVars).1 = .ok () := by rw [e] at h; exact h
  have ec : s.defineCalls = defineDimsCalls s.dims s.fileDims ++ (defineVarsCalls s.vars s.fileVars ++
      (defineAttsCalls (defineVars s.vars s.fileVars).2.1 ++ [.enddef])) := by
    rw [Reg.defineCalls]
    rw [thenCalls_ok h1, thenCalls_ok h3]
  obtain ⟨a1, a2, a3⟩ := defineDims_calls h1
  obtain ⟨b1, b2, b3⟩ := defineVars_calls h3
  obtain ⟨c1, c2, c3⟩ := defineAtts_calls (defineVars s.vars s.fileVars).2.1
  rw [e, ec]
  refine ⟨?_, ?_, ?_, ?_, defineDimsCalls s.dims s.fileDims ++ defineVarsCalls s.vars s.fileVars, ?_, ?_⟩
  · simp only [List.filterMap_append, a1, b2, c1]
    simp [CollCall.dim?]
  · simp only [List.filterMap_append, b1, a2, c2]
    simp [CollCall.var?]
  · simp
  · simp [a3, b3, c3]
  · simp
  · intro v a hm
    rcases List.mem_append.1 hm with hm | hm
    · have : ∀ (ds : List (Dim × Bool)) (file : List Dim), .putAtt v a ∉ defineDimsCalls ds file := by
        intro ds
        induction ds with
        | nil => intro file; simp [defineDimsCalls]
        | cons x ds ih =>
          intro file
          obtain ⟨d, b⟩ := x
          cases b with
          | true => exact ih file
          | false =>
            rw [defineDimsCalls]
            split
            · simp
            · simp [ih]
      exact this _ _ hm
    · have : ∀ (ds : List (Var × Bool)) (file : List String), .putAtt v a ∉ defineVarsCalls ds file := by
        intro ds
        induction ds with
        | nil => intro file; simp [defineVarsCalls]
        | cons x ds ih =>
          intro file
          obtain ⟨d, b⟩ := x
          cases b with
          | true => exact ih file
          | false =>
            rw [defineVarsCalls]
            split
            · simp
            · simp [ih]
      exact this _ _ hm

theorem forEachCalls_sums {β : Type} {f : Reg → β → Res Unit × Reg} {T : Reg → β → List CollCall}
    (hT : ∀ s b, ∀ x ∈ T s b, x.isSum = true) (l : List β) (s : Reg) : ∀ x ∈ forEachCalls f T l s, x.isSum = true := by
  induction l generalizing s with
  | nil => simp [forEachCalls]
  | cons b l ih =>
    intro x hx
    rw [forEachCalls] at hx
    rcases List.mem_append.1 hx with hx | hx
    · exact hT s b x hx
    · split at hx
      · exact ih _ x hx
      · cases hx

theorem stateCalls_sums (c : IoColl) (s : Reg) (p : String) : ∀ x ∈ Reg.stateCalls c s p, x.isSum = true := by
  intro x hx
  rw [Reg.stateCalls] at hx
  split at hx
  · cases hx
  · split at hx
    · rw [List.mem_singleton.1 hx]; rfl
    · cases hx

theorem fieldCalls_sums (c : IoColl) (s : Reg) (p : String) : ∀ x ∈ Reg.fieldCalls c s p, x.isSum = true := by
  intro x hx
  rw [Reg.fieldCalls] at hx
  split at hx
  · cases hx
  · split at hx
    · cases hx
    · split at hx
      · rw [List.mem_singleton.1 hx]; rfl
      · cases hx

theorem thenCalls_sums {l : List CollCall} {r : Res Unit × Reg} {k : Reg → List CollCall}
    (hl : ∀ x ∈ l, x.isSum = true) (hk : ∀ s, ∀ x ∈ k s, x.isSum = true) : ∀ x ∈ thenCalls l r k, x.isSum = true := by
  intro x hx
  rw [thenCalls] at hx
  rcases List.mem_append.1 hx with hx | hx
  · exact hl x hx
  · split at hx
    · exact hk _ x hx
    · cases hx

theorem localCalls_sums (s : Reg) (c : IoColl) (ids : List Int) (total off : Int) (fs ps : List String) :
    ∀ x ∈ s.localCalls c ids total off fs ps, x.isSum = true := by
  rw [Reg.localCalls]
  split
  · simp
  · split
    · simp
    · extract_lets none' sums marks s1 pix
      have hs : ∀ x ∈ sums, x.isSum = true := by
        intro x hx
        simp only [sums] at hx
        split at hx
        · rw [List.mem_singleton.1 hx]; rfl
        · cases hx
      cases marks with
      | ok m =>
        exact thenCalls_sums hs fun s2 => thenCalls_sums (forEachCalls_sums (stateCalls_sums c) ps s2) fun s3 =>
          forEachCalls_sums (fieldCalls_sums c) fs s3
      | throw e => exact hs
      | ub => exact hs

theorem domainCalls_sums (s : Reg) (c : IoColl) (fs ps : List String) :
    ∀ x ∈ s.domainCalls c fs ps, x.isSum = true := by
  rw [Reg.domainCalls]
  split
  · simp
  · exact localCalls_sums s c _ _ _ fs ps

theorem sums_filter {l : List CollCall} (h : ∀ x ∈ l, x.isSum = true) :
    l.filterMap CollCall.dim? = [] ∧ l.filterMap CollCall.var? = [] := by
  constructor <;>
  · refine List.filterMap_eq_nil_iff.2 fun x hx => ?_
    have := h x hx
    cases x <;> first | rfl | cases this

/-! ### Registration of the fields leaves the file as it is -/

theorem andThen_keeps {β : Type} (P : Reg → β) {r : Res Unit × Reg} {k : Reg → Res Unit × Reg} {b : β} (h : P r.2 = b)
    (hk : ∀ s, P s = b → P (k s).2 = b) : P (andThen r k).2 = b := by
  rw [andThen]
  split
  · exact hk _ h
  · exact h
  · exact h

theorem forEach_keeps {β γ : Type} (P : Reg → γ) {f : Reg → β → Res Unit × Reg} (hf : ∀ s b, P (f s b).2 = P s)
    (l : List β) (s : Reg) : P (forEach f l s).2 = P s := by
  induction l generalizing s with
  | nil => rfl
  | cons b l ih => exact andThen_keeps P (hf s b) fun s' h => (ih s').trans h

theorem stateRound_keeps {γ : Type} (P : Reg → γ) {c : IoColl} {add : Reg → StateGroup → Res Unit × Reg}
    (ha : ∀ s g, P (add s g).2 = P s) (s : Reg) (p : String) : P (Reg.stateRound c add s p).2 = P s := by
  rw [Reg.stateRound]
  split
  · rfl
  · split
    · exact ha _ _
    · rfl
    · rfl

theorem fieldRound_keeps {γ : Type} (P : Reg → γ) {c : IoColl} {add : Reg → IoField → Res Unit × Reg}
    (ha : ∀ s g, P (add s g).2 = P s) (s : Reg) (p : String) : P (Reg.fieldRound c add s p).2 = P s := by
  rw [Reg.fieldRound]
  split
  · rfl
  · split
    · rfl
    · split
      · exact ha _ _
      · rfl
      · rfl

/-- The file behind the file object. -/
def Reg.fileState (s : Reg) : OpenMode × List Dim × List String × Int × Int :=
  (s.mode, s.fileDims, s.fileVars, s.numrecs, s.nbFrames)

theorem addGlobal_file (s : Reg) (vname : String) (f : IoField) (hidden : Bool) (hist : Option Nat) (subs : List String) :
    (s.addGlobal vname f hidden hist subs).2.fileState = s.fileState := by
  rw [Reg.addGlobal]
  dsimp only
  split
  · split <;> rfl
  · rfl
  · rfl

theorem addLocal_file (s : Reg) (vname : String) (f : IoField) (hist : Option Nat) (total : Int) (lname : String)
    (marks : List Int) (subs : List String) :
    (s.addLocal vname f hist total lname marks subs).2.fileState = s.fileState := by
  rw [Reg.addLocal]
  dsimp only
  split <;> rfl

theorem registerGlobal_file (s : Reg) (c : IoColl) (dom : List Int × List Int × List Int) (fs ps : List String) :
    (s.registerGlobal c dom fs ps).2.fileState = s.fileState := by
  rw [Reg.registerGlobal]
  refine andThen_keeps Reg.fileState
    (forEach_keeps Reg.fileState (stateRound_keeps Reg.fileState fun s g => addGlobal_file ..) ps s) fun s1 h1 => ?_
  refine andThen_keeps Reg.fileState
    ((forEach_keeps Reg.fileState (fieldRound_keeps Reg.fileState fun s g => addGlobal_file ..) fs s1).trans h1)
    fun s2 h2 => ?_
  split <;> exact h2

theorem registerLocal_file (s : Reg) (c : IoColl) (ids : List Int) (total off : Int) (fs ps : List String) :
    (s.registerLocal c ids total off fs ps).2.fileState = s.fileState := by
  rw [Reg.registerLocal]
  split
  · rfl
  · split
    · rfl
    · extract_lets none' marks pix
      cases marks with
      | ub => rfl
      | throw e => rfl
      | ok m =>
        refine andThen_keeps Reg.fileState (registerGlobal_file ..) fun s2 h2 => ?_
        refine andThen_keeps Reg.fileState
          ((forEach_keeps Reg.fileState (stateRound_keeps Reg.fileState fun s g => addLocal_file ..) ps s2).trans h2)
          fun s3 h3 => ?_
        exact (forEach_keeps Reg.fileState (fieldRound_keeps Reg.fileState fun s g => addLocal_file ..) fs s3).trans h3

theorem registerDomain_file (s : Reg) (c : IoColl) (fs ps : List String) :
    (s.registerDomain c fs ps).2.fileState = s.fileState := by
  rw [Reg.registerDomain]
  split
  · exact registerGlobal_file ..
  · exact registerLocal_file ..

/-! ### How often the numbers of pixels are summed up -/

theorem names_append (s : Reg) (v : Var) (b : Bool) (dims : List (Dim × Bool)) (sn : List String) :
    ({ s with dims := dims, vars := s.vars ++ [(v, b)], stateNames := sn } : Reg).names =
      s.names ++ if v.hidden then [] else [v.name] := by
  simp only [Reg.names, List.filter_append, List.map_append]
  cases hv : v.hidden <;> simp [List.filter_cons, hv]

theorem addLocal_names {s : Reg} {vname : String} {f : IoField} {hist : Option Nat} {total : Int} {lname : String}
    {marks : List Int} {subs : List String} (h : (s.addLocal vname f hist total lname marks subs).1 = .ok ()) :
    (s.addLocal vname f hist total lname marks subs).2.names = s.names ++ [vname] := by
  rw [Reg.addLocal] at h ⊢
  dsimp only at h ⊢
  split at h
  · rw [names_append]
    rfl
  · cases h
  · cases h

theorem stateRound_count {c : IoColl} {add : Reg → StateGroup → Res Unit × Reg}
    (ha : ∀ s g, (add s g).1 = .ok () → (add s g).2.names.length = s.names.length + 1) (s : Reg) (p : String)
    (h : (Reg.stateRound c add s p).1 = .ok ()) :
    (Reg.stateRound c add s p).2.names.length = s.names.length + (Reg.stateCalls c s p).count .sum := by
  rw [Reg.stateRound] at h ⊢
  rw [Reg.stateCalls]
  split at h
  · cases h
  · rename_i hp
    rw [if_neg hp, if_neg hp]
    cases e : c.getState p with
    | ok g => rw [e] at h; exact ha _ _ h
    | throw x => rw [e] at h; cases h
    | ub => rw [e] at h; cases h

theorem fieldRound_count {c : IoColl} {add : Reg → IoField → Res Unit × Reg}
    (ha : ∀ s g, (add s g).1 = .ok () → (add s g).2.names.length = s.names.length + 1) (s : Reg) (p : String)
    (h : (Reg.fieldRound c add s p).1 = .ok ()) :
    (Reg.fieldRound c add s p).2.names.length = s.names.length + (Reg.fieldCalls c s p).count .sum := by
  rw [Reg.fieldRound] at h ⊢
  rw [Reg.fieldCalls]
  split at h
  · cases h
  · rename_i hp
    rw [if_neg hp, if_neg hp]
    split at h
    · rename_i hq
      rw [if_pos hq, if_pos hq]
      rfl
    · rename_i hq
      rw [if_neg hq, if_neg hq]
      cases e : c.getField p with
      | ok g => rw [e] at h; exact ha _ _ h
      | throw x => rw [e] at h; cases h
      | ub => rw [e] at h; cases h

theorem forEach_count {β : Type} {f : Reg → β → Res Unit × Reg} {T : Reg → β → List CollCall}
    (hf : ∀ s b, (f s b).1 = .ok () → (f s b).2.names.length = s.names.length + (T s b).count .sum) (l : List β) (s : Reg)
    (h : (forEach f l s).1 = .ok ()) :
    (forEach f l s).2.names.length = s.names.length + (forEachCalls f T l s).count .sum := by
  induction l generalizing s with
  | nil => rfl
  | cons b l ih =>
    obtain ⟨h1, h2⟩ := andThen_okc h
    have h3 : (forEach f l (f s b).2).1 = .ok () := by
      have h' : (andThen (f s b) (forEach f l)).1 = .ok () := h
      rw [h2] at h'; exact h'
    have e : forEach f (b :: l) s = forEach f l (f s b).2 := h2
    rw [e, ih _ h3, hf s b h1, forEachCalls, List.count_append, h1]
    dsimp only
    omega

theorem addGlobal_hidden {s : Reg} {vname : String} {f : IoField} {hist : Option Nat} {subs : List String} :
    (s.addGlobal vname f true hist subs).2.names = s.names := by
  rw [Reg.addGlobal]
  dsimp only
  split
  · split
    · simp only [Reg.names, List.filter_append, List.map_append]
      simp
    · rfl
    · rfl
  · rfl
  · rfl

/-- The hidden variable for the pixels of a local collection does not count. -/
theorem registerPixels_names {s : Reg} {l : String} {m : List Int} {dom : List Int × List Int × List Int} {pix : IoColl} :
    (Reg.registerGlobal { s with gfc := s.gfc ++ [(l, m)] } pix dom [l] []).2.names = s.names := by
  rw [Reg.registerGlobal]
  refine andThen_keeps Reg.names rfl fun s1 h1 => ?_
  have : ∀ hn : List String, l ∈ hn → (forEach (Reg.fieldRound pix fun s f =>
      s.addGlobal f.name f (decide (f.name ∈ hn)) none []) [l] s1).2.names = s1.names := by
    intro hn hl
    refine andThen_keeps Reg.names ?_ fun s h => h
    rw [Reg.fieldRound]
    split
    · rfl
    · split
      · rfl
      · cases e : pix.getField l with
        | ok f =>
          have hf : f.name = l := by
            rw [IoColl.getField] at e
            split at e
            · rename_i g hg
              cases e
              simpa using List.find?_some hg
            · cases e
          dsimp only
          rw [hf, decide_eq_true hl]
          exact addGlobal_hidden
        | throw x => rfl
        | ub => rfl
  refine andThen_keeps Reg.names ((this _ (by simp)).trans h1) fun s2 h2 => ?_
  split <;> exact h2

theorem registerLocal_count {s : Reg} {c : IoColl} {ids : List Int} {total off : Int} {fs ps : List String}
    (h : (s.registerLocal c ids total off fs ps).1 = .ok ()) :
    (s.registerLocal c ids total off fs ps).2.names.length =
      s.names.length + (s.localCalls c ids total off fs ps).count .sum := by
  rw [Reg.registerLocal] at h ⊢
  rw [Reg.localCalls]
  cases hp : s.pixels with
  | none => rw [hp] at h; cases h
  | some dom =>
    simp only [hp] at h ⊢
    by_cases hg : c.name ∈ s.gfc.map Prod.fst
    · rw [if_pos hg] at h; cases h
    · rw [if_neg hg] at h ⊢
      rw [if_neg hg]
      generalize hsums : (if s.mode = .write ∨ s.mode = .overwrite then [CollCall.cumulativeSum] else []) = sums at h ⊢
      have hs0 : sums.count .sum = 0 := by
        rw [← hsums]; split <;> rfl
      cases hmk : (if s.mode = .write ∨ s.mode = .overwrite then markPixels (getSize dom.2.1).toNat off ids
          else .ok (List.replicate (getSize dom.2.1).toNat (-1 : Int))) with
      | throw e => rw [hmk] at h; cases h
      | ub => rw [hmk] at h; cases h
      | ok m =>
        simp only [hmk] at h ⊢
        obtain ⟨h1, h2⟩ := andThen_okc h
        rw [h2] at h ⊢
        obtain ⟨h3, h4⟩ := andThen_okc h
        rw [h4] at h ⊢
        rw [thenCalls_ok h1, thenCalls_ok h3, List.count_append, List.count_append, hs0,
          forEach_count (T := Reg.fieldCalls c) (fieldRound_count fun s f hok => by rw [addLocal_names hok]; simp) _ _ h,
          forEach_count (T := Reg.stateCalls c) (stateRound_count fun s g hok => by rw [addLocal_names hok]; simp) _ _ h3]
        have e := @registerPixels_names s c.name m dom
          ⟨"", true, [pixelField c.name dom], [], .global dom.1 dom.2.1 dom.2.2⟩
        simp only [hp] at e
        rw [e]
        omega

theorem defineVars_names (vs : List (Var × Bool)) (file : List String) :
    (defineVars vs file).2.1.map Prod.fst = vs.map Prod.fst := by
  induction vs generalizing file with
  | nil => rfl
  | cons a vs ih =>
    obtain ⟨v, b⟩ := a
    cases b with
    | true => simp [defineVars, ih]
    | false =>
      rw [defineVars]
      split
      · rfl
      · simp [ih]

theorem names_of_vars {s t : Reg} (h : s.vars.map Prod.fst = t.vars.map Prod.fst) : s.names = t.names := by
  have : ∀ r : Reg, r.names = ((r.vars.map Prod.fst).filter fun v => !v.hidden).map Var.name := by
    intro r
    rw [Reg.names, List.filter_map, List.map_map]
    rfl
  rw [this, this, h]

theorem define_names (s : Reg) : s.define.2.names = s.names := by
  rw [Reg.define]
  refine andThen_keeps Reg.names rfl fun s1 h1 => ?_
  exact (names_of_vars (defineVars_names ..)).trans h1

theorem inquireVars_names (vs : List (Var × Bool)) (file : List String) :
    (inquireVars file vs).2.map Prod.fst = vs.map Prod.fst := by
  induction vs with
  | nil => rfl
  | cons a vs ih =>
    obtain ⟨v, b⟩ := a
    cases b with
    | true => simp [inquireVars, ih]
    | false =>
      rw [inquireVars]
      split
      · simp [ih]
      · rfl

theorem inquire_names (s : Reg) : s.inquire.2.names = s.names := by
  rw [Reg.inquire]
  split
  · rfl
  · refine andThen_keeps Reg.names rfl fun s1 h1 => ?_
    split
    · exact h1
    · exact (names_of_vars (inquireVars_names ..)).trans h1

end Verif.NetCDF
