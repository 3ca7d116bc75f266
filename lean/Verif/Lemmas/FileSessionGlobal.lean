import Verif.Lemmas.FileSession
/-
Open files with fields and state fields of global collections: helper lemmas.
-/
namespace Verif.Props
open Verif Verif.Ccoord Verif.Layout Verif.Layout.FieldLayout Verif.RawMemory Verif.FileIO Verif.NetCDF
open Verif.Collection Verif.Collection.Coll

variable {α : Type}

theorem head_filePos (f : IoField) (fr : Int) (k : Nat) (hist : Option Nat) (cc : List Int) (s : Int) (g : List Int) :
    (filePos f (leadPos false fr k hist) cc s g).head? = some fr := by
  cases hist <;> simp [filePos, leadPos]

theorem GlobalStored.keep {hist : Option Nat} {f : IoField} {fr : Int} {val : Values α} {d d' : List Int → α}
    (hd : ∀ y, y.head? = some fr → d' y = d y) (h : GlobalStored hist f fr val d) : GlobalStored hist f fr val d' :=
  ⟨fun k hk cc s g hcc h0 h1 hg => (hd _ (head_filePos ..)).trans (h.values k hk cc s g hcc h0 h1 hg), h.aliased⟩

theorem PartHolds.aliased {N : Nat} {val : Values α} {f : IoField} {view : List Int → List Int} {m : ProcMem α}
    (h : PartHolds (some N) val f view m) {k k' : Nat} (hk : k ≤ N) (hk' : k' ≤ N)
    (he : (initialIndices N)[k]? = (initialIndices N)[k']?) {cc : List Int} {s : Int} {g : List Int}
    (hin : InField f cc s g) : val k cc s (view g) = val k' cc s (view g) := by
  obtain ⟨c, -, -, -, hh⟩ := h
  obtain ⟨j, b, d1, d2, st, d3, d4⟩ := hh k hk
  obtain ⟨j', b', d1', d2', st', d3', d4'⟩ := hh k' hk'
  rw [cycled_same.2 he, d1'] at d1
  cases d1
  rw [d2'] at d2
  cases d2
  rw [d3'] at d3
  cases d3
  exact Option.some.inj ((d4 cc s g hin).symm.trans (d4' cc s g hin))

theorem GlobalVar.aliased {x : SessVar} {f : IoField} (hx : GlobalVar x f) {ms : List (ProcMem α)} {val : Values α}
    (hm : GlobalHold x ms val) : Aliased x.hist f (InBox f.nbDomain) val := by
  intro N hN k hk k' hk' he cc s g hcc hs0 hs1 hg
  obtain ⟨v, hv, hvg⟩ := hx.cover g hg
  obtain ⟨i, hi, rfl⟩ := List.getElem_of_mem hv
  have hi' : i < ms.length := by rw [← hm.length_eq]; exact hi
  have := List.Forall₂.get hm hi hi'
  simp only [List.get_eq_getElem, hN] at this
  have hs := hx.same _ (List.getElem_mem hi)
  exact this.aliased hk hk' he ⟨hs.comps ▸ hcc, hs0, hs.sub ▸ hs1, hvg⟩

theorem procData_ranks {x : SessVar} {ms : List (ProcMem α)} {val : Values α} (hh : x.hist = none)
    (parts : List Var) (hm : List.Forall₂ (fun v m => PartHolds x.hist val v.field id m) parts ms)
    (hf : ∀ v ∈ parts, GlobalField v.field)
    (hr : ∀ v ∈ parts, ∃ grid grid', registerGlobalVar x.name v.field false x.hist grid = .ok (v, grid')) :
    ∃ rs : List (Rank α), (∀ r ∈ rs, r.Ready x.name false none ∧ r.f = r.v.field ∧ r.val = val 0) ∧
      rs.map Rank.v = parts ∧
      mapRes (fun w : StateData α => do let b ← at! w.bufs 0; pure (w.v, w.marks, b))
        (procData parts (parts.map fun _ => []) ms) = .ok (rs.map fun r => (r.v, [], r.buf)) := by
  induction hm with
  | nil => exact ⟨[], by simp, rfl, rfl⟩
  | @cons v m parts ms h _ ih =>
    obtain ⟨rs, h1, h2, h3⟩ := ih (fun v hv => hf v (by simp [hv])) (fun v hv => hr v (by simp [hv]))
    simp only [PartHolds, hh] at h
    obtain ⟨b, hb, hold⟩ := h
    refine ⟨⟨v, v.field, b, val 0⟩ :: rs, ?_, by rw [List.map_cons, h2], ?_⟩
    · intro r hrm
      rcases List.mem_cons.1 hrm with rfl | hrm
      · refine ⟨⟨hf v (by simp), by simp, ?_, hold⟩, rfl, rfl⟩
        rw [← hh]
        exact hr v (by simp)
      · exact h1 r hrm
    · simp only [List.map_cons, procData, mapRes, h3, hb]
      rfl

theorem procData_stateRanks {x : SessVar} {ms : List (ProcMem α)} {val : Values α} {N : Nat} (hh : x.hist = some N)
    (parts : List Var) (hm : List.Forall₂ (fun v m => PartHolds x.hist val v.field id m) parts ms)
    (hf : ∀ v ∈ parts, GlobalField v.field)
    (hr : ∀ v ∈ parts, ∃ grid grid', registerGlobalVar x.name v.field false x.hist grid = .ok (v, grid')) :
    ∃ rs : List (StateRank α), (∀ r ∈ rs, r.Ready x.name N ∧ r.f = r.v.field ∧ r.val = val) ∧
      rs.map StateRank.v = parts ∧
      procData parts (parts.map fun _ => []) ms = rs.map fun r => r.data N [] := by
  induction hm with
  | nil => exact ⟨[], by simp, rfl, rfl⟩
  | @cons v m parts ms h _ ih =>
    obtain ⟨rs, h1, h2, h3⟩ := ih (fun v hv => hf v (by simp [hv])) (fun v hv => hr v (by simp [hv]))
    simp only [PartHolds, hh] at h
    obtain ⟨c, hi, hl, ha, hold⟩ := h
    refine ⟨⟨v, v.field, c, m.bufs, val⟩ :: rs, ?_, by rw [List.map_cons, h2], ?_⟩
    · intro r hrm
      rcases List.mem_cons.1 hrm with rfl | hrm
      · refine ⟨⟨hf v (by simp), ?_, hl, ha, hold⟩, rfl, rfl⟩
        rw [← hh]
        exact hr v (by simp)
      · exact h1 r hrm
    · simp only [List.map_cons, procData, h3, hi, StateRank.data]

theorem GlobalVar.shape_eq {x : SessVar} {f : IoField} (hx : GlobalVar x f) :
    ∀ v ∈ x.parts, varForm x = v.form := by
  intro v hv
  cases hp : x.parts with
  | nil => exact absurd hp hx.nonempty
  | cons v0 vs =>
    rw [varForm, hp]
    have h0 : v0 ∈ x.parts := by rw [hp]; simp
    obtain ⟨g1, g1', r1⟩ := hx.registered v0 h0
    obtain ⟨g2, g2', r2⟩ := hx.registered v hv
    obtain ⟨hv1, hs1, hg1⟩ := Verif.NetCDF.registered (hx.field v0 h0) (by simp) r1
    obtain ⟨hv2, hs2, hg2⟩ := Verif.NetCDF.registered (hx.field v hv) (by simp) r2
    have s1 := hx.same v0 h0
    have s2 := hx.same v hv
    exact form_congr hv1 hs1 hg1 hv2 hs2 hg2
      ⟨s1.ty.trans s2.ty.symm, s1.comps.trans s2.comps.symm, s1.sub.trans s2.sub.symm, s1.domain.trans s2.domain.symm⟩

/-- The shape in the file is the same for all programs. -/
theorem GlobalVar.shape_unique {x x' : SessVar} {f : IoField} (hx : GlobalVar x f) (hx' : GlobalVar x' f)
    (hh : x.hist = x'.hist) : varForm x = varForm x' := by
  obtain ⟨v, hv⟩ := List.exists_mem_of_ne_nil _ hx.nonempty
  obtain ⟨v', hv'⟩ := List.exists_mem_of_ne_nil _ hx'.nonempty
  rw [hx.shape_eq v hv, hx'.shape_eq v' hv']
  obtain ⟨g1, g1', r1⟩ := hx.registered v hv
  obtain ⟨g2, g2', r2⟩ := hx'.registered v' hv'
  obtain ⟨hv1, hs1, hg1⟩ := Verif.NetCDF.registered (hx.field v hv) (by simp) r1
  rw [← hh] at r2
  obtain ⟨hv2, hs2, hg2⟩ := Verif.NetCDF.registered (hx'.field v' hv') (by simp) r2
  have s1 := hx.same v hv
  have s2 := hx'.same v' hv'
  exact form_congr hv1 hs1 hg1 hv2 hs2 hg2
    ⟨s1.ty.trans s2.ty.symm, s1.comps.trans s2.comps.symm, s1.sub.trans s2.sub.symm, s1.domain.trans s2.domain.symm⟩

theorem GlobalVar.inField {x : SessVar} {f : IoField} (hx : GlobalVar x f) {cc : List Int} {s : Int} {g : List Int}
    (hcc : InBox f.layout.comps cc) (h0 : 0 ≤ s) (h1 : s < f.layout.nbSub) (hg : InBox f.nbDomain g) :
    ∃ v ∈ x.parts, InField v.field cc s g := by
  obtain ⟨v, hv, hvg⟩ := hx.cover g hg
  have := hx.same v hv
  exact ⟨v, hv, this.comps ▸ hcc, h0, this.sub ▸ h1, hvg⟩

theorem GlobalVar.writes {x : SessVar} {f : IoField} (hx : GlobalVar x f) :
    Writes (α := α) x (x.parts.map fun _ => []) (varForm x) (GlobalHold x) (GlobalStored x.hist f) := by
  refine ⟨?_, fun hd h => h.keep hd⟩
  intro nb frame fr ms val fv hm hfr hsh
  have same2 : ∀ v ∈ x.parts, ∀ v' ∈ x.parts, SameField v.field v'.field := fun v hv v' hv' =>
    have s1 := hx.same v hv
    have s2 := hx.same v' hv'
    ⟨s1.ty.trans s2.ty.symm, s1.comps.trans s2.comps.symm, s1.sub.trans s2.sub.symm, s1.domain.trans s2.domain.symm⟩
  cases hh : x.hist with
  | none =>
    obtain ⟨rs, h1, h2, h3⟩ := procData_ranks hh x.parts hm hx.field hx.registered
    have hmem : ∀ r ∈ rs, r.v ∈ x.parts := fun r hr => by rw [← h2]; exact List.mem_map_of_mem hr
    obtain ⟨fv', e1, e2, e3, e4⟩ := C36_values rs (vname := x.name) (hidden := false) (hist := none)
      (fun r hr => (h1 r hr).1)
      (fun r hr r' hr' => by
        rw [(h1 r hr).2.1, (h1 r' hr').2.1]; exact same2 _ (hmem r hr) _ (hmem r' hr'))
      (by
        have := hx.disjoint
        rw [← h2, List.pairwise_map] at this
        refine this.imp_of_mem ?_
        intro r r' hr hr' hd
        rw [Disjoint, (h1 r hr).2.1, (h1 r' hr').2.1]
        exact hd) hfr (k := 0) rfl (fv := fv) (fun r hr => hsh.trans (hx.shape_eq _ (hmem r hr)))
    refine ⟨fv', ?_, e2.trans hsh, ?_, ?_⟩
    · simp only [SessVar.put, hh]
      rw [h3, Res.ok_bind, writeRanks_global, List.map_map, ← e1]
      · rfl
      · intro w hw
        obtain ⟨r, hr, rfl⟩ := List.mem_map.1 hw
        rw [← (h1 r hr).2.1]
        exact (h1 r hr).1.field.is_global
    · refine ⟨?_, hh ▸ hx.aliased hm⟩
      intro k hk cc s g hcc hs0 hs1 hg
      obtain ⟨v, hv, hin⟩ := hx.inField hcc hs0 hs1 hg
      rw [← h2] at hv
      obtain ⟨r, hr, rfl⟩ := List.mem_map.1 hv
      obtain rfl : k = 0 := hk
      have := e3 r hr cc s g (by rw [(h1 r hr).2.1]; exact hin)
      rw [(h1 r hr).2.2, (h1 r hr).2.1, filePos_congr (hx.same _ (hmem r hr))] at this
      exact this
    · intro y hy
      refine e4 y ?_
      rintro r hr cc s g - rfl
      exact hy (head_filePos ..)
  | some N =>
    obtain ⟨rs, h1, h2, h3⟩ := procData_stateRanks hh x.parts hm hx.field hx.registered
    have hmem : ∀ r ∈ rs, r.v ∈ x.parts := fun r hr => by rw [← h2]; exact List.mem_map_of_mem hr
    obtain ⟨fv', e1, e2, e3, e4⟩ := C52_write rs (vname := x.name) (N := N)
      (fun r hr => (h1 r hr).1)
      (fun r hr r' hr' => by
        rw [(h1 r hr).2.1, (h1 r' hr').2.1]; exact same2 _ (hmem r hr) _ (hmem r' hr'))
      (by
        have := hx.disjoint
        rw [← h2, List.pairwise_map] at this
        refine this.imp_of_mem ?_
        intro r r' hr hr' hd
        rw [(h1 r hr).2.1, (h1 r' hr').2.1]
        exact hd) hfr (fv := fv) (fun r hr => hsh.trans (hx.shape_eq _ (hmem r hr)))
    refine ⟨fv', ?_, e2.trans hsh, ?_, ?_⟩
    · simp only [SessVar.put, hh]
      rw [h3, e1]
    · refine ⟨?_, hh ▸ hx.aliased hm⟩
      intro k hk cc s g hcc hs0 hs1 hg
      obtain ⟨v, hv, hin⟩ := hx.inField hcc hs0 hs1 hg
      rw [← h2] at hv
      obtain ⟨r, hr, rfl⟩ := List.mem_map.1 hv
      have := e3 r hr k hk cc s g (by rw [(h1 r hr).2.1]; exact hin)
      rw [(h1 r hr).2.2, (h1 r hr).2.1, filePos_congr (hx.same _ (hmem r hr))] at this
      exact this
    · intro y hy
      refine e4 y ?_
      rintro r hr k hk cc s g - rfl
      exact hy (head_filePos ..)

/-! ### Reading -/

/-- Reading on one process, if reading into the memory of a field gives the values of the entry. -/
theorem get1_spec {x : SessVar} {f : IoField} {v : Var} {m : ProcMem α} {val val0 : Values α}
    {view view0 : List Int → List Int} {nb frame numrecs : Int} {marks : List Int} {fv : FileVar α}
    (hstep : ∀ k, HistIdx k x.hist → ∀ b, (∃ w, Holds f b w) →
      ∃ b', v.read nb frame k marks numrecs fv b = .ok b' ∧ Holds f b' fun cc s g => val k cc s (view g))
    (hal : ∀ N, x.hist = some N → ∀ k ≤ N, ∀ k' ≤ N, (initialIndices N)[k]? = (initialIndices N)[k']? →
      ∀ cc s g, InField f cc s g → val k cc s (view g) = val k' cc s (view g))
    (hm : PartHolds x.hist val0 f view0 m) :
    ∃ m', x.get1 nb frame numrecs fv ⟨v, m.idx, m.bufs, marks⟩ = .ok m' ∧ PartHolds x.hist val f view m' := by
  unfold SessVar.get1
  unfold PartHolds at hm ⊢
  cases hh : x.hist with
  | none =>
    rw [hh] at hm
    obtain ⟨b, hb, hold⟩ := hm
    obtain ⟨b', h1, h2⟩ := hstep 0 (by rw [hh]; rfl) b ⟨_, hold⟩
    refine ⟨⟨m.idx, [b']⟩, ?_, b', rfl, h2⟩
    simp only [hb]
    rw [at!_eq_ok (by simp), Res.ok_bind]
    simp only [List.getElem_cons_zero]
    rw [h1]
    rfl
  | some N =>
    rw [hh] at hm
    obtain ⟨c, hi, hl, ha, -⟩ := hm
    have hlc := cycled_length N c
    obtain ⟨bufs', d1, d2, d3, d4, -⟩ := histLoop_read (idx := cycled N c)
      (rd := fun k b => v.read nb frame k marks numrecs fv b) (List.range (N + 1))
      (fun b => ∃ w, Holds f b w) (fun k b => Holds f b fun cc s g => val k cc s (view g)) (by
        intro k hkm b hb
        obtain ⟨b', h1, h2⟩ := hstep k (by rw [hh]; exact Nat.lt_succ_iff.1 (List.mem_range.1 hkm)) b hb
        exact ⟨b', h1, h2, _, h2⟩) (by
        rintro k k' hkl hkl' he b ⟨st, hs1, hb1⟩
        refine ⟨st, hs1, fun cc s g hin => (hb1 cc s g hin).trans (congrArg some ?_)⟩
        exact hal N hh k (by omega) k' (by omega) (cycled_same.1 he) cc s g hin)
      (by simp [hlc]) m.bufs (by rw [hl]; exact cycled_lt) ha
    refine ⟨⟨m.idx, bufs'⟩, ?_, c, hi, d2.trans hl, d3, ?_⟩
    · simp only [readState, hi]
      rw [d1]
      rfl
    · intro k hk
      exact d4 k (by omega) (Or.inl (List.mem_range.2 (by omega)))

theorem varFrame_throw {β : Type} {nb frame : Int} (h : varFrame nb frame = .throw .fileIOError)
    (F : Int → Res β) (hF : ∀ f, f < 0 → F f = .throw .fileIOError) :
    (do let f ← handleFrame frame nb; F f) = .throw .fileIOError := by
  unfold varFrame at h
  cases hh : handleFrame frame nb with
  | ok f =>
    rw [hh, Res.ok_bind] at h
    rw [Res.ok_bind]
    by_cases h0 : f < 0
    · exact hF f h0
    · rw [if_neg h0] at h
      cases h
  | throw e =>
    rw [hh, Res.throw_bind] at h
    cases h
    rfl
  | ub => rw [hh, Res.ub_bind] at h; cases h

theorem read_throw {v : Var} {nb frame : Int} (h : varFrame nb frame = .throw .fileIOError) (k : Nat) (marks : List Int)
    (numrecs : Int) (fv : FileVar α) (b : Mem α) : v.read nb frame k marks numrecs fv b = .throw .fileIOError := by
  unfold Var.read
  split
  · refine varFrame_throw h _ fun f hf => ?_
    rw [Var.startGlobal, if_pos hf, Res.throw_bind]
  · refine varFrame_throw h _ fun f hf => ?_
    rw [Var.startLocal, if_pos hf, Res.throw_bind]

theorem get1_throw {x : SessVar} {f : IoField} {v : Var} {m : ProcMem α} {val0 : Values α}
    {view0 : List Int → List Int} {nb frame numrecs : Int} {marks : List Int} {fv : FileVar α}
    (hrd : ∀ k b, v.read nb frame k marks numrecs fv b = .throw .fileIOError)
    (h : PartHolds x.hist val0 f view0 m) :
    x.get1 nb frame numrecs fv ⟨v, m.idx, m.bufs, marks⟩ = .throw .fileIOError := by
  unfold SessVar.get1
  unfold PartHolds at h
  cases hh : x.hist with
  | none =>
    rw [hh] at h
    obtain ⟨b, hb, -⟩ := h
    simp only [hb]
    rw [at!_eq_ok (by simp), Res.ok_bind, hrd]
    rfl
  | some N =>
    rw [hh] at h
    obtain ⟨c, hi, hl, ha, hold⟩ := h
    obtain ⟨j, b, d1, d2, -⟩ := hold 0 (by omega)
    obtain ⟨hj, rfl⟩ := List.getElem?_eq_some_iff.1 d2
    dsimp only
    rw [readState, List.range_succ_eq_map, histLoop]
    simp only [hi, stateSlot, d1, Res.ok_bind, at!_eq_ok hj, hrd]
    rfl

/-- The memories of all processes are allocated; they may hold any values. -/
def Allocated (x : SessVar) (ms : List (ProcMem α)) : Prop :=
  List.Forall₂ (fun v m => ∃ val0, PartHolds x.hist val0 v.field id m) x.parts ms

theorem GlobalHold.allocated {x : SessVar} {ms : List (ProcMem α)} {val : Values α} (h : GlobalHold x ms val) :
    Allocated x ms := h.imp fun _ _ h => ⟨val, h⟩

theorem GlobalVar.reads {x : SessVar} {f : IoField} (hx : GlobalVar x f) :
    Reads (α := α) x (x.parts.map fun _ => []) (varForm x) (Allocated x) (GlobalHold x) (GlobalStored x.hist f) := by
  refine ⟨?_, fun h => h.allocated, ?_⟩
  case refine_2 =>
    intro nb frame numrecs ms fv hm hfr
    unfold Allocated at hm
    cases hp : x.parts with
    | nil => exact absurd hp hx.nonempty
    | cons v parts =>
      rw [hp] at hm
      obtain ⟨m, ms', ⟨val0, h⟩, -, rfl⟩ := List.forall₂_cons_left_iff.1 hm
      simp only [SessVar.get, List.map_cons, procData, mapRes, get1_throw (fun k b => read_throw hfr k [] numrecs fv b) h]
      rfl
  intro nb frame fr numrecs ms val fv hm hfr hn hsh hst
  have key : ∀ parts : List Var, (∀ v ∈ parts, v ∈ x.parts) → ∀ {ms : List (ProcMem α)},
      List.Forall₂ (fun v m => ∃ val0, PartHolds x.hist val0 v.field id m) parts ms →
      ∃ ms', x.get nb frame numrecs (procData parts (parts.map fun _ => []) ms) fv = .ok ms' ∧
        List.Forall₂ (fun v m => PartHolds x.hist val v.field id m) parts ms' := by
    intro parts hp ms hm
    induction hm with
    | nil => exact ⟨[], rfl, .nil⟩
    | @cons v m parts ms h _ ih =>
      obtain ⟨ms', h1, h2⟩ := ih fun v hv => hp v (by simp [hv])
      obtain ⟨val0, h⟩ := h
      have hv := hp v (by simp)
      have hs := hx.same v hv
      have hdom : ∀ {cc s g}, InField v.field cc s g → InBox f.layout.comps cc ∧ 0 ≤ s ∧ s < f.layout.nbSub ∧
          InBox f.nbDomain g := fun hin =>
        ⟨hs.comps ▸ hin.1, hin.2.1, hs.sub ▸ hin.2.2.1, hs.domain ▸ inBoxAt_of_within (hx.field v hv).inside hin.2.2.2⟩
      obtain ⟨grid, grid', hreg⟩ := hx.registered v hv
      obtain ⟨m', g1, g2⟩ := get1_spec (x := x) (f := v.field) (v := v) (m := m) (val := val) (view := id) (nb := nb)
        (frame := frame) (numrecs := numrecs) (marks := []) (fv := fv) (by
          rintro k hk b ⟨w, hb⟩
          obtain ⟨b', e1, ⟨st, e2, e3⟩, -⟩ := C35_read (hx.field v hv) (by simp) hreg hfr hk hn hb
            (hsh.trans (hx.shape_eq v hv))
          refine ⟨b', by rw [Var.read, if_pos (hx.field v hv).is_global, e1], st, e2, ?_⟩
          intro cc s g hin
          obtain ⟨a1, a2, a3, a4⟩ := hdom hin
          rw [e3 cc s g hin]
          dsimp only
          rw [filePos_congr hs, hst.values k hk cc s g a1 a2 a3 a4]
          rfl) (by
          intro N hN k hk k' hk' he cc s g hin
          obtain ⟨a1, a2, a3, a4⟩ := hdom hin
          exact hst.aliased N hN k hk k' hk' he cc s g a1 a2 a3 a4) h
      refine ⟨m' :: ms', ?_, .cons g2 h2⟩
      simp only [SessVar.get] at h1 ⊢
      simp only [List.map_cons, procData, mapRes, g1, h1, Res.ok_bind]
      rfl
  exact key x.parts (fun v hv => hv) hm

/-- A frame that is not in the file cannot be read. -/
theorem GlobalVar.reads_missing {x : SessVar} {f : IoField} (hx : GlobalVar x f) {nb frame fr numrecs : Int}
    {ms : List (ProcMem α)} {fv : FileVar α} (hm : Allocated x ms) (hfr : varFrame nb frame = .ok fr)
    (hn : numrecs ≤ fr) (hsh : fv.form = varForm x) :
    x.get nb frame numrecs (procData x.parts (x.parts.map fun _ => []) ms) fv = .throw .fileIOError := by
  unfold Allocated at hm
  cases hp : x.parts with
  | nil => exact absurd hp hx.nonempty
  | cons v parts =>
    rw [hp] at hm
    have hv : v ∈ x.parts := by rw [hp]; simp
    obtain ⟨m, ms', ⟨val0, h⟩, -, rfl⟩ := List.forall₂_cons_left_iff.1 hm
    obtain ⟨grid, grid', hreg⟩ := hx.registered v hv
    have hrd : ∀ k b, v.read nb frame k [] numrecs fv b = .throw .fileIOError := fun k b => by
      rw [Var.read, if_pos (hx.field v hv).is_global,
        C35_read_missing (hx.field v hv) hreg hfr hn b (hsh.trans (hx.shape_eq v hv))]
    simp only [SessVar.get, List.map_cons, procData, mapRes, get1_throw (hrd · ·) h]
    rfl

end Verif.Props
