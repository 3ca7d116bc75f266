import Verif.Lemmas.FileDims
import Verif.Spec.FileRegister
/-
Registration of collections that can be stored.
-/
namespace Verif.NetCDF
open Verif Verif.Ccoord Verif.Layout Verif.Props

/-! ### Loops -/

theorem addDims_spec (dims : List (Dim × Bool)) (ds : List Dim) :
    ∃ new : List Dim, addDims dims ds = dims ++ new.map (·, false) ∧ (∀ d ∈ new, d ∈ ds) ∧
      (∀ d ∈ ds, d ∈ (addDims dims ds).map Prod.fst) ∧
      ((dims.map Prod.fst).Nodup → ((addDims dims ds).map Prod.fst).Nodup) := by
  induction ds generalizing dims with
  | nil => exact ⟨[], by simp [addDims], by simp, by simp, by simp [addDims]⟩
  | cons d ds ih =>
    rw [addDims]
    by_cases h : d ∈ dims.map Prod.fst
    · rw [if_pos h]
      obtain ⟨new, h1, h2, h3, h4⟩ := ih dims
      refine ⟨new, h1, fun e he => by simp [h2 e he], fun e he => ?_, h4⟩
      rcases List.mem_cons.1 he with rfl | he
      · rw [h1, List.map_append]; exact List.mem_append_left _ h
      · exact h3 e he
    · rw [if_neg h]
      obtain ⟨new, h1, h2, h3, h4⟩ := ih (dims ++ [(d, false)])
      refine ⟨d :: new, by rw [h1]; simp, fun e he => ?_, fun e he => ?_, fun hn => h4 ?_⟩
      · rcases List.mem_cons.1 he with rfl | he
        · simp
        · simp [h2 e he]
      · rcases List.mem_cons.1 he with rfl | he
        · rw [h1, List.map_append]; exact List.mem_append_left _ (by simp)
        · exact h3 e he
      · rw [List.map_append]
        exact List.nodup_append.2 ⟨hn, by simp, by
          intro a ha b hb
          rw [List.map_cons, List.map_nil, List.mem_singleton] at hb
          rintro rfl
          exact h ((show a = d from hb) ▸ ha)⟩

theorem gridLoop_ok {names : List String} {grid nb : List Int} (h1 : nb.length ≤ names.length)
    (h2 : nb.length ≤ grid.length) (h3 : ∀ p ∈ List.zip grid nb, p.1 = 0 ∨ p.1 = p.2) :
    gridLoop names grid nb = (.ok (), List.zipWith (fun nm n => ⟨dimName nm "", n⟩) names nb,
      nb ++ grid.drop nb.length) := by
  induction nb generalizing names grid with
  | nil => cases names <;> cases grid <;> simp [gridLoop]
  | cons n nb ih =>
    match names, grid with
    | [], _ => simp at h1
    | _ :: _, [] => simp at h2
    | nm :: names, g :: grid =>
      have hg := h3 (g, n) (by simp)
      rw [gridLoop, if_neg (by simp only at hg; omega),
        ih (by simpa using h1) (by simpa using h2) fun p hp => h3 p (by simp [hp])]
      simp

/-- The entries of `global_domain_grid` go with the domain. -/
def GridFor (dom grid : List Int) : Prop := grid.length = 3 ∧ ∀ p ∈ List.zip grid dom, p.1 = 0 ∨ p.1 = p.2

theorem gridFor_zero (dom : List Int) : GridFor dom [0, 0, 0] := by
  refine ⟨rfl, fun p hp => Or.inl ?_⟩
  have := (List.of_mem_zip (a := p.1) (b := p.2) hp).1
  simpa using this

theorem gridFor_full {dom grid : List Int} (hd : dom.length ≤ 3) (h : GridFor dom grid) :
    GridFor dom (dom ++ grid.drop dom.length) := by
  refine ⟨by simp [h.1]; omega, fun p hp => Or.inr ?_⟩
  have e : List.zip (dom ++ grid.drop dom.length) dom = List.zip dom dom := by
    have := List.zip_append (l₁ := dom) (r₁ := grid.drop dom.length) (l₂ := dom) (r₂ := []) rfl
    simpa using this
  rw [e] at hp
  have : List.zip dom dom = dom.map fun x => (x, x) := by
    clear * -
    induction dom with
    | nil => rfl
    | cons a l ih => simp [ih]
  rw [this] at hp
  obtain ⟨x, -, rfl⟩ := List.mem_map.1 hp
  rfl

/-! ### Adding variables -/

/-- The variable for a field of a global collection. -/
def globalVar (vname : String) (f : IoField) (hidden : Bool) (hist : Option Nat) : Var :=
  ⟨vname, f, hist, leadDims hidden hist ++ (tensorDims vname 0 f.layout.comps ++ (subPtDims f ++
    List.zipWith (fun nm n => ⟨dimName nm "", n⟩) gridNames f.nbDomain)), hidden, ""⟩

/-- The variable for a field of a local collection. -/
def localVar (vname : String) (f : IoField) (hist : Option Nat) (total : Int) (lname : String) : Var :=
  ⟨vname, f, hist, localDims vname f hist total, false, lname⟩

/-- Dimensions in the order in which they are first needed. -/
def addNew : List Dim → List Dim → List Dim
  | dims, [] => dims
  | dims, d :: ds => addNew (if d ∈ dims then dims else dims ++ [d]) ds

theorem addNew_append (a b c : List Dim) : addNew a (b ++ c) = addNew (addNew a b) c := by
  induction b generalizing a with
  | nil => rfl
  | cons d b ih => rw [List.cons_append, addNew, addNew, ih]

theorem addDims_fst (dims : List (Dim × Bool)) (ds : List Dim) :
    (addDims dims ds).map Prod.fst = addNew (dims.map Prod.fst) ds := by
  induction ds generalizing dims with
  | nil => rfl
  | cons d ds ih =>
    rw [addDims, addNew, ih]
    split <;> simp

/-- The state after the variables `vs` were added, with new dimensions in `K` as far as needed. -/
structure Adds (K : Dim → Prop) (dom : List Int) (s s' : Reg) (vs : List Var) (sn : List String) : Prop where
  vars : s'.vars = s.vars ++ vs.map (·, false)
  stateNames : s'.stateNames = s.stateNames ++ sn
  dims : ∃ ds : List Dim, s'.dims = s.dims ++ ds.map (·, false) ∧ ∀ d ∈ ds, K d
  nodup : (s.dims.map Prod.fst).Nodup → (s'.dims.map Prod.fst).Nodup
  has : ∀ v ∈ vs, ∀ d ∈ v.dims, d ∈ s'.dims.map Prod.fst
  grid : GridFor dom s.grid → GridFor dom s'.grid
  mode : s'.mode = s.mode
  pixels : s'.pixels = s.pixels
  gfc : s'.gfc = s.gfc
  nbFrames : s'.nbFrames = s.nbFrames
  fileDims : s'.fileDims = s.fileDims
  fileVars : s'.fileVars = s.fileVars
  numrecs : s'.numrecs = s.numrecs
  order : s'.dims.map Prod.fst = addNew (s.dims.map Prod.fst) (vs.flatMap Var.dims)

section
variable {K : Dim → Prop} {dom : List Int}

theorem Adds.refl (s : Reg) : Adds K dom s s [] [] :=
  ⟨by simp, by simp, ⟨[], by simp, by simp⟩, id, by simp, id, rfl, rfl, rfl, rfl, rfl, rfl, rfl, rfl⟩

theorem Adds.trans {s s' s'' : Reg} {vs ws : List Var} {a b : List String} (h : Adds K dom s s' vs a)
    (h' : Adds K dom s' s'' ws b) : Adds K dom s s'' (vs ++ ws) (a ++ b) := by
  obtain ⟨ds, h1, h2⟩ := h.dims
  obtain ⟨ds', h3, h4⟩ := h'.dims
  refine ⟨by rw [h'.vars, h.vars]; simp, by rw [h'.stateNames, h.stateNames]; simp,
    ⟨ds ++ ds', by rw [h3, h1]; simp, fun d hd => (List.mem_append.1 hd).elim (h2 d) (h4 d)⟩,
    fun hn => h'.nodup (h.nodup hn), fun v hv d hd => ?_, fun hg => h'.grid (h.grid hg), h'.mode.trans h.mode,
    h'.pixels.trans h.pixels, h'.gfc.trans h.gfc, h'.nbFrames.trans h.nbFrames, h'.fileDims.trans h.fileDims,
    h'.fileVars.trans h.fileVars, h'.numrecs.trans h.numrecs, by
      rw [h'.order, h.order, List.flatMap_append, addNew_append]⟩
  rcases List.mem_append.1 hv with hv | hv
  · rw [h3, List.map_append]
    exact List.mem_append_left _ (h.has v hv d hd)
  · exact h'.has v hv d hd

theorem Adds.names {s s' : Reg} {vs : List Var} {sn : List String} (h : Adds K dom s s' vs sn) :
    s'.names = s.names ++ (vs.filter fun v => !v.hidden).map Var.name := by
  rw [Reg.names, Reg.names, h.vars, List.filter_append, List.map_append, List.filter_map, List.map_map]
  rfl

theorem addGlobal_adds {s : Reg} {vname : String} {f : IoField} {hidden : Bool} {hist : Option Nat}
    (sn : List String) (hg : GridFor dom s.grid) (hd : f.nbDomain = dom) (hs : StorableShape vname f) (hon : OnGrid f)
    (hty : f.ty ≠ .complex) (hK : ∀ d ∈ (globalVar vname f hidden hist).dims, K d) :
    (s.addGlobal vname f hidden hist sn).1 = .ok () ∧
      Adds K dom s (s.addGlobal vname f hidden hist sn).2 [globalVar vname f hidden hist] sn := by
  have h3 : f.nbDomain.length ≤ 3 := hon.dim
  have e := gridLoop_ok (names := gridNames) (grid := s.grid) (nb := f.nbDomain) h3 (by rw [hg.1]; exact h3)
    (by rw [hd]; exact hg.2)
  obtain ⟨new, h4, h5, h6, h7⟩ := addDims_spec s.dims (globalVar vname f hidden hist).dims
  have hv : IsGlobalVar (globalVar vname f hidden hist) vname f hidden hist := ⟨rfl, rfl, rfl, hty⟩
  obtain ⟨t, ht⟩ := ncTypeOf_of_ne hty
  rw [Reg.addGlobal, e, ht]
  refine ⟨checkGlobal_ok hv hs hon, rfl, rfl, ⟨new, h4, fun d hd => hK d (h5 d hd)⟩, h7, ?_, ?_, rfl, rfl, rfl,
    rfl, rfl, rfl, rfl, by
      rw [List.flatMap_singleton]; exact addDims_fst s.dims (globalVar vname f hidden hist).dims⟩
  · intro v hv d hd
    rw [List.mem_singleton] at hv
    subst hv
    exact h6 d hd
  · intro _
    rw [← hd] at hg ⊢
    exact gridFor_full h3 hg

theorem addLocal_adds {s : Reg} {vname : String} {f : IoField} {hist : Option Nat} {total n : Int} (lname : String)
    (marks : List Int) (sn : List String) (hf : LocalField f n) (ht : 0 < total) (hc : Clean vname)
    (hs : StorableShape vname f) (hty : f.ty ≠ .complex) (hK : ∀ d ∈ localDims vname f hist total, K d) :
    (s.addLocal vname f hist total lname marks sn).1 = .ok () ∧
      Adds K dom s (s.addLocal vname f hist total lname marks sn).2 [localVar vname f hist total lname] sn := by
  obtain ⟨new, h4, h5, h6, h7⟩ := addDims_spec s.dims (localVar vname f hist total lname).dims
  have hv : IsLocalVar (localVar vname f hist total lname) vname f hist total :=
    ⟨rfl, rfl, by rw [localVar, localDims, if_pos (by omega)], hc, by omega, hty⟩
  obtain ⟨t, hnt⟩ := ncTypeOf_of_ne hty
  rw [Reg.addLocal, hnt]
  refine ⟨checkLocal_ok hf hv hs marks, rfl, rfl, ⟨new, h4, fun d hd => hK d (h5 d hd)⟩, h7, ?_, id, rfl, rfl, rfl,
    rfl, rfl, rfl, rfl, by
      rw [List.flatMap_singleton]; exact addDims_fst s.dims (localVar vname f hist total lname).dims⟩
  intro v hv d hd
  rw [List.mem_singleton] at hv
  subst hv
  exact h6 d hd

/-- The loop over state fields. -/
theorem stateLoop_adds {c : IoColl} {add : Reg → StateGroup → Res Unit × Reg} {var : StateGroup → Var}
    (hvis : ∀ g, (var g).hidden = false) (hname : ∀ g, (var g).name = g.pre) (gs : List StateGroup)
    (hget : ∀ g ∈ gs, c.getState g.pre = .ok g)
    (hadd : ∀ g ∈ gs, ∀ s : Reg, GridFor dom s.grid →
      (add s g).1 = .ok () ∧ Adds K dom s (add s g).2 [var g] g.subNames)
    {s : Reg} (hg : GridFor dom s.grid) (hn : (s.names ++ gs.map StateGroup.pre).Nodup) :
    (forEach (Reg.stateRound c add) (gs.map StateGroup.pre) s).1 = .ok () ∧
      Adds K dom s (forEach (Reg.stateRound c add) (gs.map StateGroup.pre) s).2 (gs.map var)
        (gs.flatMap StateGroup.subNames) := by
  induction gs generalizing s with
  | nil => exact ⟨rfl, Adds.refl s⟩
  | cons g gs ih =>
    have hp : g.pre ∉ s.names := by
      intro h
      exact (List.nodup_append.1 hn).2.2 _ h _ (by simp) rfl
    obtain ⟨h1, h2⟩ := hadd g (by simp) s hg
    have e : Reg.stateRound c add s g.pre = add s g := by
      rw [Reg.stateRound, if_neg hp, hget g (by simp)]
    have hn' : ((add s g).2.names ++ gs.map StateGroup.pre).Nodup := by
      rw [h2.names]
      simpa [hvis, hname] using hn
    obtain ⟨h3, h4⟩ := ih (fun g hg => hget g (by simp [hg])) (fun g hg => hadd g (by simp [hg])) (h2.grid hg) hn'
    rw [List.map_cons, forEach, e, andThen, h1]
    exact ⟨h3, by simpa using h2.trans h4⟩

/-- The loop over fields. -/
theorem fieldLoop_adds {c : IoColl} {add : Reg → IoField → Res Unit × Reg} {var : IoField → Var}
    (hname : ∀ f, (var f).name = f.name) (fs : List IoField)
    (hget : ∀ f ∈ fs, c.getField f.name = .ok f) {sn : List String}
    (hadd : ∀ f ∈ fs, f.name ∉ sn → ∀ s : Reg, GridFor dom s.grid →
      (add s f).1 = .ok () ∧ Adds K dom s (add s f).2 [var f] [])
    {s : Reg} (hg : GridFor dom s.grid) (hsn : s.stateNames = sn)
    (hn : (s.names ++ (fs.filter fun f => f.name ∉ sn).map IoField.name).Nodup)
    (hsk : ∀ f ∈ fs, f.name ∈ sn → f.name ∉ s.names) :
    (forEach (Reg.fieldRound c add) (fs.map IoField.name) s).1 = .ok () ∧
      Adds K dom s (forEach (Reg.fieldRound c add) (fs.map IoField.name) s).2
        ((fs.filter fun f => f.name ∉ sn).map var) [] := by
  induction fs generalizing s with
  | nil => exact ⟨rfl, Adds.refl s⟩
  | cons f fs ih =>
    rw [List.map_cons, forEach]
    by_cases hf : f.name ∈ sn
    · have e : Reg.fieldRound c add s f.name = (.ok (), s) := by
        rw [Reg.fieldRound, if_neg (hsk f (by simp) hf), if_pos (hsn ▸ hf)]
      rw [e, andThen, List.filter_cons_of_neg (by simpa using hf)]
      rw [List.filter_cons_of_neg (by simpa using hf)] at hn
      exact ih (fun f hf => hget f (by simp [hf])) (fun f hf => hadd f (by simp [hf])) hg hsn hn
        fun f hf => hsk f (by simp [hf])
    · rw [List.filter_cons_of_pos (by simpa using hf)] at hn ⊢
      have hp : f.name ∉ s.names := by
        intro h
        exact (List.nodup_append.1 hn).2.2 _ h _ (by simp) rfl
      obtain ⟨h1, h2⟩ := hadd f (by simp) hf s hg
      have e : Reg.fieldRound c add s f.name = add s f := by
        rw [Reg.fieldRound, if_neg hp, if_neg (hsn ▸ hf), hget f (by simp)]
      have hn' : ((add s f).2.names ++ (fs.filter fun f => f.name ∉ sn).map IoField.name).Nodup := by
        rw [h2.names]
        cases hv : (var f).hidden
        · rw [show ([var f].filter fun v => !v.hidden).map Var.name = [f.name] by simp [hv, hname],
            List.append_assoc]
          exact hn
        · simp only [List.map_cons] at hn
          have := (List.nodup_append.1 hn)
          simp only [hv, List.filter_cons, List.filter_nil, Bool.not_true, Bool.false_eq_true, if_false, List.map_nil,
            List.append_nil]
          refine List.nodup_append.2 ⟨this.1, (List.nodup_cons.1 this.2.1).2, fun a ha b hb => ?_⟩
          exact this.2.2 a ha b (List.mem_cons_of_mem _ hb)
      have hsk' : ∀ g ∈ fs, g.name ∈ sn → g.name ∉ (add s f).2.names := by
        intro g hg' hgs
        rw [h2.names, List.mem_append]
        rintro (h | h)
        · exact hsk g (by simp [hg']) hgs h
        · obtain ⟨v, hv, he⟩ := List.mem_map.1 h
          have hv := List.mem_singleton.1 (List.mem_filter.1 hv).1
          rw [hv, hname] at he
          exact hf (he ▸ hgs)
      obtain ⟨h3, h4⟩ := ih (fun f hf => hget f (by simp [hf])) (fun f hf => hadd f (by simp [hf])) (h2.grid hg)
        (by rw [h2.stateNames, List.append_nil]; exact hsn) hn' hsk'
      rw [e, andThen, h1]
      exact ⟨h3, by simpa using h2.trans h4⟩

theorem andThen_assoc (r : Res Unit × Reg) (k l : Reg → Res Unit × Reg) :
    andThen (andThen r k) l = andThen r fun s => andThen (k s) l := by
  obtain ⟨o, s⟩ := r
  cases o <;> rfl

theorem andThen_ok {r : Res Unit × Reg} (h : r.1 = .ok ()) (k : Reg → Res Unit × Reg) : andThen r k = k r.2 := by
  rw [andThen, h]

theorem find_nodup {β : Type} (key : β → String) {l : List β} (hnd : (l.map key).Nodup) {x : β} (hx : x ∈ l) :
    l.find? (fun y => key y = key x) = some x := by
  induction l with
  | nil => simp at hx
  | cons a l ih =>
    rw [List.map_cons, List.nodup_cons] at hnd
    rw [List.find?_cons]
    rcases List.mem_cons.1 hx with rfl | hx
    · simp
    · have : key a ≠ key x := fun e => hnd.1 (e ▸ List.mem_map_of_mem hx)
      simp [this, ih hnd.2 hx]

/-- Both loops. -/
theorem loops_add {c : IoColl} {addS : Reg → StateGroup → Res Unit × Reg} {addF : Reg → IoField → Res Unit × Reg}
    {varS : StateGroup → Var} {varF : IoField → Var} (hfn : (c.fields.map IoField.name).Nodup)
    (hsn : (c.states.map StateGroup.pre).Nodup)
    (hvS : ∀ g, (varS g).hidden = false) (hnS : ∀ g, (varS g).name = g.pre) (hnF : ∀ f, (varF f).name = f.name)
    (hS : ∀ g ∈ c.states, ∀ s : Reg, GridFor dom s.grid →
      (addS s g).1 = .ok () ∧ Adds K dom s (addS s g).2 [varS g] g.subNames)
    (hF : ∀ f ∈ c.plain, ∀ s : Reg, GridFor dom s.grid →
      (addF s f).1 = .ok () ∧ Adds K dom s (addF s f).2 [varF f] [])
    {s : Reg} (hg : GridFor dom s.grid) (hn : (s.names ++ c.toStore.map Prod.fst).Nodup)
    (hskip : ∀ n ∈ s.stateNames ++ c.subs, n ∉ s.names ++ c.toStore.map Prod.fst) :
    (andThen (forEach (Reg.stateRound c addS) (c.states.map StateGroup.pre) s)
      fun s1 => forEach (Reg.fieldRound c addF) (c.fields.map IoField.name) s1).1 = .ok () ∧
    Adds K dom s (andThen (forEach (Reg.stateRound c addS) (c.states.map StateGroup.pre) s)
      fun s1 => forEach (Reg.fieldRound c addF) (c.fields.map IoField.name) s1).2
        (c.states.map varS ++ c.plain.map varF) c.subs := by
  have hn1 : (s.names ++ c.states.map StateGroup.pre).Nodup := by
    rw [IoColl.toStore, List.map_append, ← List.append_assoc] at hn
    have := (List.nodup_append.1 hn).1
    simpa [Function.comp_def] using this
  obtain ⟨h1, h2⟩ := stateLoop_adds (c := c) hvS hnS c.states
    (fun g hg => by rw [IoColl.getState, find_nodup StateGroup.pre hsn hg]) hS hg hn1
  rw [andThen_ok h1]
  generalize (forEach (Reg.stateRound c addS) (c.states.map StateGroup.pre) s).2 = s1 at h2 ⊢
  have hnm : s1.names = s.names ++ c.states.map StateGroup.pre := by
    rw [h2.names, List.filter_eq_self.2 (by
      intro v hv
      obtain ⟨g, -, rfl⟩ := List.mem_map.1 hv
      simp [hvS])]
    simp [Function.comp_def, hnS]
  have hst : s1.stateNames = s.stateNames ++ c.subs := h2.stateNames
  have hplain : (c.fields.filter fun f => f.name ∉ s.stateNames ++ c.subs) = c.plain := by
    rw [IoColl.plain]
    apply List.filter_congr
    intro f hf
    by_cases h : f.name ∈ c.subs
    · simp [h]
    · by_cases h' : f.name ∈ s.stateNames
      · exfalso
        refine hskip f.name (by simp [h']) (List.mem_append_right _ ?_)
        rw [IoColl.toStore, List.map_append]
        refine List.mem_append_right _ (List.mem_map.2 ⟨(f.name, f, none), List.mem_map.2 ⟨f, ?_, rfl⟩, rfl⟩)
        exact List.mem_filter.2 ⟨hf, by simpa using h⟩
      · simp [h, h']
  obtain ⟨h3, h4⟩ := fieldLoop_adds (c := c) (K := K) (add := addF) hnF c.fields
    (fun f hf => by rw [IoColl.getField, find_nodup IoField.name hfn hf]) (sn := s.stateNames ++ c.subs)
    (fun f hf hn => hF f (by rw [← hplain]; exact List.mem_filter.2 ⟨hf, by simpa using hn⟩)) (h2.grid hg) hst
    (by
      rw [hplain, hnm]
      rw [IoColl.toStore, List.map_append, ← List.append_assoc] at hn
      simpa [Function.comp_def] using hn)
    (fun f hf hn => by
      rw [hnm]
      intro h
      refine hskip _ hn ?_
      rcases List.mem_append.1 h with h | h
      · exact List.mem_append_left _ h
      · refine List.mem_append_right _ ?_
        rw [IoColl.toStore, List.map_append]
        refine List.mem_append_left _ ?_
        simpa [Function.comp_def] using h)
  rw [hplain] at h4
  exact ⟨h3, by simpa [IoColl.subs] using h2.trans h4⟩

end

end Verif.NetCDF
