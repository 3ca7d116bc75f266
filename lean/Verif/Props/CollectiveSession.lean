import Verif.Lemmas.CollectiveWorld
import Verif.Props.Collective
import Verif.Props.ParallelSession
/-
**C101** The processes of a program that uses a file in the parallel build do not wait for each other for ever.
-/
namespace Verif.Props
open Verif Verif.Ccoord Verif.Layout Verif.Layout.FieldLayout Verif.RawMemory Verif.FileIO Verif.NetCDF

variable {α : Type} {conv : Conv α} {convI : Conv Int}

/-! ### Programs -/

theorem registerGlobal_name {vname : String} {f : IoField} {hidden : Bool} {hist : Option Nat} {grid grid' : List Int} {v : Var}
    (h : registerGlobalVar vname f hidden hist grid = .ok (v, grid')) : v.name = vname := by
  obtain ⟨d, -, h⟩ := Res.bind_eq_ok.1 h
  obtain ⟨t, -, h⟩ := Res.bind_eq_ok.1 h
  obtain ⟨u, -, h⟩ := Res.bind_eq_ok.1 h
  cases h; rfl

theorem registerLocal_name {vname : String} {f : IoField} {hist : Option Nat} {total : Int} {l : String} {marks : List Int} {v : Var}
    (h : registerLocalVar vname f hist total l marks = .ok v) : v.name = vname := by
  obtain ⟨t, -, h⟩ := Res.bind_eq_ok.1 h
  obtain ⟨u, -, h⟩ := Res.bind_eq_ok.1 h
  cases h; rfl

section
variable {dom : List Int} {rs : List FileRank} {mode : OpenMode} {F : FileRank → Reg}

theorem joinVars_stored (h : ProgramOk dom rs) (hF : ∀ r ∈ rs, RegOf mode r (F r)) :
    (joinVars (rs.map F)).map SessVar.name = storedNames rs := by
  cases hrs : rs with
  | nil => exact absurd hrs h.nonempty
  | cons r0 rest =>
    rw [← hrs, joinVars_eq h hF hrs, List.map_map, hrs]
    rfl

/-- The processes of a program have what belongs together after the registration of their collections. -/
theorem matched_program (h : ProgramOk dom rs) (hF : ∀ r ∈ rs, RegOf mode r (F r)) (hcount : Counted rs)
    {D : FileDesc} (hD : Fits D dom rs) {s : Sess} (hs : s.vars = joinVars (rs.map F)) (hh : s.hidden = joinHidden (rs.map F))
    (hm : s.marks = joinMarks (rs.map F)) (file : NcFile α) {mem : Memory α} (hmem : MemoryOf rs.length (storedNames rs) mem)
    (indep : Bool) : ParWorld.Matched rs.length ⟨⟨s, file, mem⟩, indep⟩ := by
  have hreg := registered_of h hD hF
  have hn := counted_vars h hF hcount
  have hst := joinVars_stored h hF
  obtain ⟨r0, rest, hrs⟩ : ∃ r0 rest, rs = r0 :: rest := by
    cases hrs : rs with
    | nil => exact absurd hrs h.nonempty
    | cons a l => exact ⟨a, l, rfl⟩
  have hlen : ∀ x ∈ joinVars (rs.map F), x.parts.length = rs.length := by
    intro x hx
    rw [joinVars_eq h hF hrs] at hx
    obtain ⟨e, -, rfl⟩ := List.mem_map.1 hx
    exact List.length_map ..
  refine ⟨?_, ?_, ?_, ?_⟩
  · show ∀ x ∈ s.vars, _
    rw [hs]
    intro x hx
    refine ⟨hlen x hx, fun v hv => ?_⟩
    cases hl : x.localName with
    | none =>
      have g := hreg.global x hx hl
      obtain ⟨grid, grid', hr⟩ := g.registered v hv
      exact ⟨.inl ⟨_, _, _, _, _, _, g.field v hv, fun h => (by cases h), hn x hx hl v hv, hr⟩, registerGlobal_name hr,
        (g.field v hv).is_global⟩
    | some l =>
      have g := hreg.isLocal x hx l hl
      rw [g.parts] at hv
      obtain ⟨p, hp, rfl⟩ := List.mem_map.1 hv
      obtain ⟨lname, marks0, hr⟩ := g.registered p hp
      exact ⟨.inr ⟨_, _, _, _, _, _, _, g.field p hp, g.total_pos, hr⟩, registerLocal_name hr, (g.field p hp).is_local⟩
  · show ∀ x ∈ s.vars, _
    rw [hs]
    intro x hx
    exact hmem x.name (by rw [← hst]; exact List.mem_map_of_mem hx)
  · intro x hx l hl
    show (s.marks l).length = _
    rw [hm, joinMarks, List.length_map, List.length_map]
  · show ∀ x ∈ s.vars, _
    rw [hs]
    intro x hx l hl vs hvs
    replace hvs : s.hidden l = some vs := hvs
    rw [hh, hreg.hidden_eq x hx l hl] at hvs
    cases hvs
    have g := hreg.hid x hx l hl
    refine ⟨by rw [List.length_map]; exact List.length_map .., fun v hv => ?_⟩
    obtain ⟨p, hp, rfl⟩ := List.mem_map.1 hv
    obtain ⟨grid, grid', hr⟩ := g.registered p hp
    exact ⟨.inl ⟨_, _, _, _, _, _, g.field p hp, fun _ => g.sub p hp, counted_hidden rs l p hp, hr⟩, registerGlobal_name hr,
      (g.field p hp).is_global⟩

theorem sized_program (h : ProgramOk dom rs) (hF : ∀ r ∈ rs, RegOf mode r (F r)) {n : Nat} {op : FileOp (Memory α)}
    (hs : op.Sized n (storedNames rs)) : op.Sized n ((joinVars (rs.map F)).map SessVar.name) := by
  rw [joinVars_stored h hF]; exact hs

theorem registrations_same (h : CallsAlike rs) (define : Bool) (mode : OpenMode) (dims : List Dim) (vars : List String)
    (numrecs : Int) : Same rs.length fun i => Reg.runCalls define (Reg.opened mode dims vars numrecs)
      (registrations (((rs.map FileRank.colls)[i]?).getD [])) := by
  have e : ∀ i : Fin rs.length, registrations (((rs.map FileRank.colls)[i.1]?).getD []) = registerAll (rs[i.1]).colls := by
    intro i
    rw [List.getElem?_map, List.getElem?_eq_getElem i.2]
    rfl
  cases hn : rs.length with
  | zero => exact ⟨[], fun i hi => absurd hi (by omega)⟩
  | succ n =>
    have h0 : 0 < rs.length := by omega
    refine ⟨Reg.runCalls define (Reg.opened mode dims vars numrecs) (registerAll (rs[0]).colls), fun i hi => ?_⟩
    have hi' : i < rs.length := by omega
    show Reg.runCalls _ _ (registrations (((rs.map FileRank.colls)[i]?).getD [])) = _
    rw [e ⟨i, hi'⟩]
    have key := C98_calls (n := rs.length) mode dims vars numrecs (ops := fun i => registerAll (rs[i.1]).colls)
      (fun i j => ?_) (fun i => h.placed _ (List.getElem_mem ..)) define ⟨i, hi'⟩ ⟨0, h0⟩
    · exact key
    · have ha := h.alike _ (List.getElem_mem i.2) _ (List.getElem_mem j.2)
      unfold registerAll
      rw [List.forall₂_map_left_iff, List.forall₂_map_right_iff]
      exact ha.imp fun c d hcd => .register _ _ hcd

theorem returns_of_same {n : Nat} (hn : 0 < n) {t : Nat → List CollCall} (h : Same n t) : AllReturn fun i : Fin n => t i := by
  obtain ⟨c, h⟩ := h
  exact (meets_same hn).2 fun i j => by rw [h i i.2, h j j.2]

/-! ### Examples -/

theorem exG_alike (name : String) {o o' : StorageOrder} (ho : o = .colMajor ∨ o = .rowMajor) (ho' : o' = .colMajor ∨ o' = .rowMajor)
    (n n' loc loc' : Int) : (exG name o n loc).Alike (exG name o' n' loc') :=
  ⟨rfl, rfl, rfl, rfl, rfl, rfl, rfl, rfl, rfl, rfl, ho, ho', by simp [exG]⟩

theorem exL_alike (n n' : Int) : (exL n).Alike (exL n') :=
  ⟨rfl, rfl, rfl, rfl, rfl, rfl, rfl, rfl, rfl, rfl, .inl rfl, .inl rfl, by simp [exL]⟩

theorem exProc_alike {oT oU oT' oU' : StorageOrder} (h1 : oT = .colMajor ∨ oT = .rowMajor) (h2 : oU = .colMajor ∨ oU = .rowMajor)
    (h3 : oT' = .colMajor ∨ oT' = .rowMajor) (h4 : oU' = .colMajor ∨ oU' = .rowMajor) (n n' loc loc' off off' : Int)
    (ids ids' : List Int) : List.Forall₂ IoColl.Alike (exProc oT oU n loc ids off).colls (exProc oT' oU' n' loc' ids' off').colls :=
  .cons ⟨rfl, rfl, .cons (exG_alike _ h1 h3 ..) (.cons (exG_alike _ h1 h3 ..) (.cons (exG_alike _ h2 h4 ..) .nil)),
      .cons ⟨rfl, rfl, rfl, exG_alike _ h1 h3 ..⟩ .nil, .global rfl rfl⟩
    (.cons ⟨rfl, rfl, .cons (exL_alike ..) .nil, .nil, .isLocal⟩ .nil)

theorem exProc_placed {oT oU : StorageOrder} {n loc off : Int} {ids : List Int} (h : ∀ id ∈ ids, 0 ≤ id ∧ id < n) :
    Placed (registerAll (exProc oT oU n loc ids off).colls) := by
  intro c fs ps c' fs' ps' ids' total off' nb sh loc' h1 h2 e1 e2
  simp only [registerAll, exProc, List.map_cons, List.map_nil, List.mem_cons, RegOp.register.injEq, List.not_mem_nil, or_false] at h1 h2
  rcases h1 with ⟨rfl, -⟩ | ⟨rfl, -⟩
  · cases e1
  · cases e1
    rcases h2 with ⟨rfl, -⟩ | ⟨rfl, -⟩
    · cases e2
      intro id hid
      have := h id hid
      simpa [getSize] using this
    · cases e2

theorem exRanks_alike : CallsAlike exRanks := by
  constructor
  · intro r hr r' hr'
    simp only [exRanks, List.mem_cons, List.not_mem_nil, or_false] at hr hr'
    rcases hr with rfl | rfl <;> rcases hr' with rfl | rfl <;>
      exact exProc_alike (by simp) (by simp) (by simp) (by simp) ..
  · intro r hr
    simp only [exRanks, List.mem_cons, List.not_mem_nil, or_false] at hr
    rcases hr with rfl | rfl <;> exact exProc_placed (by decide)

theorem exRanks_alike' : CallsAlike exRanks' := by
  constructor
  · intro r hr r' hr'
    rw [exRanks', List.mem_singleton] at hr hr'
    subst hr hr'
    exact exProc_alike (by simp) (by simp) (by simp) (by simp) ..
  · intro r hr
    rw [exRanks', List.mem_singleton] at hr
    subst hr
    exact exProc_placed (by decide)

theorem exMem_sized (k : Int) : MemoryOf 2 ["T", "u", "p"] (exMem k) := by
  intro x hx
  simp only [List.mem_cons, List.not_mem_nil, or_false] at hx
  rcases hx with rfl | rfl | rfl <;> rfl

theorem exPar_sized : ∀ op ∈ exParOps, op.Sized exRanks.length (storedNames exRanks) := by
  rw [exStored]
  intro op hop
  simp only [exParOps, List.mem_cons, List.not_mem_nil, or_false] at hop
  rcases hop with rfl | rfl | rfl | rfl | rfl | rfl | rfl <;> first | exact exMem_sized 1000 | trivial

end

theorem exParWorld_matched : ParWorld.Matched 2 ⟨exParWorld, false⟩ := by
  obtain ⟨D, hD, -⟩ := exists_fits exRanks_ok exNumbered
  have hF : ∀ r ∈ exRanks, RegOf .write r (regOf .write [] [] 0 r) := fun r hr => regOf_new exRanks_ok (Or.inl rfl) hr
  have hsess := joinSess_created (mode := .write) (F := regOf .write [] [] 0) exRanks_ok.nonempty
    (fun r hr => (regOf_writing exRanks_ok (Or.inl rfl) hr).2.nbFrames)
  unfold exParWorld
  rw [registerRanks_snd, hsess]
  exact matched_program exRanks_ok hF exRanks_counted hD rfl rfl rfl _ (by rw [exStored]; exact exMem_sized 5) false

/-! ### Operations -/

/-- **C101** An operation that ends on all processes in the same way, with or without an exception: all processes make the same
collective calls, so none waits for ever. -/
theorem C101_step {n : Nat} (hn : 0 < n) {p : ParWorld α} (h : p.Matched n) {op : FileOp (Memory α)}
    (ho : NoHidden p.sess.vars p.sess.hidden op) (ha : (p.step conv convI op).1.Agreed) :
    (∀ i j, i < n → j < n → p.stepTrace conv convI i op = p.stepTrace conv convI j op) ∧
      AllReturn fun i : Fin n => p.stepTrace conv convI i op := by
  have hs := stepTrace_same h ho ha
  refine ⟨fun i j hi hj => ?_, returns_of_same hn hs⟩
  obtain ⟨c, hc⟩ := hs
  exact (hc i hi).trans (hc j hj).symm

/-- Writing all fields after `append_frame`: a state field with two entries, a field and a local field with its hidden variable.
And a frame that does not exist: an exception on both processes, and no collective call. -/
example : ParWorld.Matched 2 ⟨exParWorld, false⟩ ∧
    (∀ i < 2, ParWorld.stepTrace exConv exConv ⟨(exParWorld.step .appendFrame).2, false⟩ i (.writeAll 0) =
      [.putAll "T", .putAll "T", .putAll "u", .putAll "L", .beginIndep, .endIndep]) ∧
    (ParWorld.step exConv exConv ⟨exParWorld, false⟩ (.write 3 ["u"])).1.Agreed ∧
    ∀ i < 2, ParWorld.stepTrace exConv exConv ⟨exParWorld, false⟩ i (.write 3 ["u"]) = [] :=
  ⟨exParWorld_matched, by decide +kernel, by decide +kernel, by decide +kernel⟩

/-- **C101** The same for sequences of operations in a program that catches exceptions. -/
theorem C101_run {n : Nat} (hn : 0 < n) {p : ParWorld α} (h : p.Matched n) {ops : List (FileOp (Memory α))}
    (ho : ∀ op ∈ ops, NoHidden p.sess.vars p.sess.hidden op) (hs : ∀ op ∈ ops, op.Sized n (p.sess.vars.map SessVar.name))
    (ha : ∀ o ∈ (p.run conv convI ops).1, o.Agreed) :
    (∀ i j, i < n → j < n → p.runTrace conv convI i ops = p.runTrace conv convI j ops) ∧
      AllReturn fun i : Fin n => p.runTrace conv convI i ops := by
  have hs := runTrace_same ops h ho hs ha
  refine ⟨fun i j hi hj => ?_, returns_of_same hn hs⟩
  obtain ⟨c, hc⟩ := hs
  exact (hc i hi).trans (hc j hj).symm

/-- Operations some of which are refused on both processes. -/
def exRefused : List (FileOp (Memory Int)) :=
  [.write 0 ["u"], .appendFrame, .write 0 ["T", "nothing", "u"], .read 0 ["u"], .writeAll (-1), .read 0 ["p", "T"]]

example : (ParWorld.run exConv exConv ⟨exParWorld, false⟩ exRefused).1 =
      [.throw .fileIOError, .ok (), .throw .fileIOError, .ok (), .ok (), .ok ()] ∧
    (∀ i < 2, ParWorld.runTrace exConv exConv i ⟨exParWorld, false⟩ exRefused =
      [.putAll "T", .putAll "T", .getAll "u", .putAll "T", .putAll "T", .putAll "u", .putAll "L", .beginIndep, .endIndep,
        .getAll "L", .beginIndep, .endIndep, .getAll "T", .getAll "T"]) ∧
    (∀ op ∈ exRefused, op.Sized 2 (exParWorld.sess.vars.map SessVar.name)) :=
  ⟨by decide +kernel, by decide +kernel, fun op hop => by
    simp only [exRefused, List.mem_cons, List.not_mem_nil, or_false] at hop
    rcases hop with rfl | rfl | rfl | rfl | rfl | rfl <;> trivial⟩

/-! ### Local fields -/

theorem varFrame_handle {nb frame : Int} (h : isOk (varFrame nb frame) = true) : isOk (handleFrame frame nb) = true := by
  unfold varFrame at h
  cases hf : handleFrame frame nb with
  | ok f => rfl
  | throw e => rw [hf] at h; cases h
  | ub => rw [hf] at h; cases h

theorem commonCalls_differ {read : Bool} {nb frame : Int} {nm : String} (h : isOk (varFrame nb frame) = true) :
    commonCalls read nb frame nm false true ≠ commonCalls read nb frame nm false false := by
  unfold commonCalls
  cases read with
  | true => simp [varFrame_handle h]
  | false => simp [h]

theorem isOk_bind {β γ : Type} {x : Res β} {f : β → Res γ} (h : isOk (x.bind f) = true) : isOk x = true := by
  cases x with
  | ok b => rfl
  | throw e => cases h
  | ub => cases h

theorem putParts_ok {writable indep : Bool} {nb frame : Int} {k : Nat} {ws : List (Var × List Int × Mem α)} {fv : FileVar α}
    {r : Res Unit} (h : r ∈ (putParts conv writable indep nb frame k ws fv).1) (hr : isOk r = true) :
    ∃ w ∈ ws, ∃ fv', isOk (w.1.putPart conv writable indep nb frame k w.2.1 w.2.2 fv') = true := by
  induction ws generalizing fv with
  | nil => cases h
  | cons w ws ih =>
    obtain ⟨v, m, b⟩ := w
    rw [putParts] at h
    cases hp : v.putPart conv writable indep nb frame k m b fv with
    | ok fv' => exact ⟨_, List.mem_cons_self .., fv, by rw [hp]; rfl⟩
    | throw e =>
      rw [hp] at h
      rcases List.mem_cons.1 h with rfl | h
      · cases hr
      · obtain ⟨w, hw, x⟩ := ih h; exact ⟨w, List.mem_cons_of_mem _ hw, x⟩
    | ub =>
      rw [hp] at h
      rcases List.mem_cons.1 h with rfl | h
      · cases hr
      · obtain ⟨w, hw, x⟩ := ih h; exact ⟨w, List.mem_cons_of_mem _ hw, x⟩

theorem agreed_iff {β : Type} {j : Joint β} (h : j ≠ .ub) : j.Agreed ↔ j ≠ .apart := by
  cases j with
  | ok x => exact ⟨fun _ h => (by cases h), fun _ => trivial⟩
  | throw e => exact ⟨fun _ h => (by cases h), fun _ => trivial⟩
  | ub => exact absurd rfl h
  | apart => exact ⟨fun h => h.elim, fun h => absurd rfl h⟩

/-- **C101** A local field is read: the processes come to their end if and only if the outcome is the same on all of them.  If it
is not, those that succeed wait in `ncmpi_end_indep_data` for ever. -/
theorem C101_read_local {ws : List (Var × List Int × Mem α)} (hne : ws ≠ []) {nm : String}
    (hv : ∀ w ∈ ws, w.1.Registered ∧ w.1.name = nm ∧ w.1.field.isGlobal = false) {indep : Bool} {nb frame : Int} {k : Nat}
    {numrecs : Int} {fv : FileVar α} (hub : (getCall conv indep nb frame k numrecs fv ws).1 ≠ .ub) :
    ((AllReturn fun i : Fin ws.length => getTrace conv indep nb frame k numrecs fv ws i) ↔
      (getCall conv indep nb frame k numrecs fv ws).1 ≠ .apart) ∧
    ((getCall conv indep nb frame k numrecs fv ws).1 = .apart →
      ∃ q, Meets (fun i : Fin ws.length => getTrace conv indep nb frame k numrecs fv ws i) q ∧ Waits q) := by
  have hn : 0 < ws.length := List.length_pos_of_ne_nil hne
  have hp : PartsOf nm false (ws.map Prod.fst) := by
    intro v hm
    obtain ⟨w, hw, rfl⟩ := List.mem_map.1 hm
    exact hv w hw
  have key : (getCall conv indep nb frame k numrecs fv ws).1 = .apart → ∃ i j : Fin ws.length,
      getTrace conv indep nb frame k numrecs fv ws i ≠ getTrace conv indep nb frame k numrecs fv ws j := by
    intro h
    obtain ⟨⟨r, hr, hr1⟩, r', hr', hr2⟩ := apart_differ h
    obtain ⟨i, hi, rfl⟩ := List.getElem_of_mem hr
    obtain ⟨j, hj, rfl⟩ := List.getElem_of_mem hr'
    have hi' : i < ws.length := by simpa using hi
    have hj' : j < ws.length := by simpa using hj
    refine ⟨⟨i, hi'⟩, ⟨j, hj'⟩, ?_⟩
    obtain ⟨a, a1, a2⟩ := getTrace_at (conv := conv) (indep := indep) (nb := nb) (frame := frame) (k := k) (numrecs := numrecs)
      (fv := fv) hp hi'
    obtain ⟨b, b1, b2⟩ := getTrace_at (conv := conv) (indep := indep) (nb := nb) (frame := frame) (k := k) (numrecs := numrecs)
      (fv := fv) hp hj'
    rw [List.getElem?_eq_getElem hi] at a1
    rw [List.getElem?_eq_getElem hj] at b1
    cases a1; cases b1
    show getTrace conv indep nb frame k numrecs fv ws i ≠ getTrace conv indep nb frame k numrecs fv ws j
    rw [a2, b2, hr1, hr2]
    refine commonCalls_differ ?_
    rw [List.getElem_map] at hr1
    obtain ⟨h1, -, h3⟩ := hv _ (List.getElem_mem hi')
    rw [Var.getPart, h3] at hr1
    rw [← prepareLocal_isOk h1 h3 nb frame k ws[i].2.1]
    exact isOk_bind hr1
  refine ⟨⟨fun h ha => ?_, fun ha => ?_⟩, fun ha => (C98_returns_iff hn _).2 (key ha)⟩
  · obtain ⟨i, j, hij⟩ := key ha
    exact hij ((C98_returns_iff hn _).1.1 h i j)
  · exact returns_of_same hn (getTrace_same rfl hp ((agreed_iff hub).2 ha))

/-- **C101** The same for writing. -/
theorem C101_write_local {ws : List (Var × List Int × Mem α)} (hne : ws ≠ []) {nm : String}
    (hv : ∀ w ∈ ws, w.1.Registered ∧ w.1.name = nm ∧ w.1.field.isGlobal = false) {writable indep : Bool} {nb frame : Int}
    {k : Nat} {fv : FileVar α} (hub : (putCall conv writable indep nb frame k ws fv).1 ≠ .ub) :
    ((AllReturn fun i : Fin ws.length => putTrace conv writable indep nb frame k ws fv i) ↔
      (putCall conv writable indep nb frame k ws fv).1 ≠ .apart) ∧
    ((putCall conv writable indep nb frame k ws fv).1 = .apart →
      ∃ q, Meets (fun i : Fin ws.length => putTrace conv writable indep nb frame k ws fv i) q ∧ Waits q) := by
  have hn : 0 < ws.length := List.length_pos_of_ne_nil hne
  have hp : PartsOf nm false (ws.map Prod.fst) := by
    intro v hm
    obtain ⟨w, hw, rfl⟩ := List.mem_map.1 hm
    exact hv w hw
  have hlen := putParts_length (conv := conv) writable indep nb frame k ws fv
  have key : (putCall conv writable indep nb frame k ws fv).1 = .apart → ∃ i j : Fin ws.length,
      putTrace conv writable indep nb frame k ws fv i ≠ putTrace conv writable indep nb frame k ws fv j := by
    intro h
    obtain ⟨⟨r, hr, hr1⟩, r', hr', hr2⟩ := apart_differ h
    obtain ⟨w, hw, fv', hok⟩ := putParts_ok hr hr1
    obtain ⟨i, hi, rfl⟩ := List.getElem_of_mem hr
    obtain ⟨j, hj, rfl⟩ := List.getElem_of_mem hr'
    have hi' : i < ws.length := by omega
    have hj' : j < ws.length := by omega
    refine ⟨⟨i, hi'⟩, ⟨j, hj'⟩, ?_⟩
    obtain ⟨a, a1, a2⟩ := putTrace_at (conv := conv) (writable := writable) (indep := indep) (nb := nb) (frame := frame) (k := k)
      (fv := fv) hp hi'
    obtain ⟨b, b1, b2⟩ := putTrace_at (conv := conv) (writable := writable) (indep := indep) (nb := nb) (frame := frame) (k := k)
      (fv := fv) hp hj'
    rw [List.getElem?_eq_getElem hi] at a1
    rw [List.getElem?_eq_getElem hj] at b1
    cases a1; cases b1
    show putTrace conv writable indep nb frame k ws fv i ≠ putTrace conv writable indep nb frame k ws fv j
    rw [a2, b2, hr1, hr2]
    refine commonCalls_differ ?_
    obtain ⟨h1, -, h3⟩ := hv w hw
    rw [Var.putPart, h3] at hok
    rw [← prepareLocal_isOk h1 h3 nb frame k w.2.1]
    exact isOk_bind hok
  refine ⟨⟨fun h ha => ?_, fun ha => ?_⟩, fun ha => (C98_returns_iff hn _).2 (key ha)⟩
  · obtain ⟨i, j, hij⟩ := key ha
    exact hij ((C98_returns_iff hn _).1.1 h i j)
  · exact returns_of_same hn (putTrace_same rfl hp ((agreed_iff hub).2 ha))

/-! ### Programs that use a file -/

section
variable {dom : List Int} {rs : List FileRank} {mode : OpenMode}

theorem program_same (h : ProgramOk dom rs) {F : FileRank → Reg} (hF : ∀ r ∈ rs, RegOf mode r (F r)) (hcount : Counted rs)
    {D : FileDesc} (hD : Fits D dom rs) {s : Sess} (hs : s.vars = joinVars (rs.map F)) (hh : s.hidden = joinHidden (rs.map F))
    (hk : s.marks = joinMarks (rs.map F)) (file : NcFile α) {mem : Memory α} (hmem : MemoryOf rs.length (storedNames rs) mem)
    {ops : List (FileOp (Memory α))} (hnames : ∀ op ∈ ops, NoLocalNames rs op)
    (hsized : ∀ op ∈ ops, op.Sized rs.length (storedNames rs))
    (ha : ∀ o ∈ (ParWorld.run conv convI ⟨⟨s, file, mem⟩, false⟩ ops).1, o.Agreed) :
    Same rs.length fun i => ParWorld.runTrace conv convI i ⟨⟨s, file, mem⟩, false⟩ ops := by
  refine runTrace_same ops (matched_program h hF hcount hD hs hh hk file hmem false) (fun op hop => ?_) (fun op hop => ?_) ha
  · show NoHidden s.vars s.hidden op
    rw [hs, hh]
    exact noHidden_of h hF _ (hnames op hop)
  · show op.Sized _ (s.vars.map SessVar.name)
    rw [hs]
    exact sized_program h hF (hsized op hop)

/-- **C101** A program creates a file.  Its processes register the same collections, each with its own part, and then append
frames, write, read and compute, in any order.  If no call ends on some of the processes with an exception and on others
without one, all of them come to their end. -/
theorem C101_create_partial (h : ProgramOk dom rs) (hn : Numbered rs) (hcount : Counted rs) (hal : CallsAlike rs)
    (hm : mode = .write ∨ mode = .overwrite) (garbage : String → List Int → α) (garbageInt : String → List Int → Int)
    {mem : Memory α} (hmem : MemoryOf rs.length (storedNames rs) mem) {ops : List (FileOp (Memory α))}
    (hnames : ∀ op ∈ ops, NoLocalNames rs op) (hsized : ∀ op ∈ ops, op.Sized rs.length (storedNames rs))
    (ha : ∀ o ∈ (createFilePar conv convI mode (rs.map FileRank.colls) garbage garbageInt mem ops).results, o.Agreed) :
    AllReturn fun i : Fin rs.length =>
      createTrace conv convI mode (rs.map FileRank.colls) garbage garbageInt mem ops i := by
  obtain ⟨D, hD, -⟩ := exists_fits h hn
  have hF : ∀ r ∈ rs, RegOf mode r (regOf mode [] [] 0 r) := fun r hr => regOf_new h hm hr
  have hsess := joinSess_created (mode := mode) (F := regOf mode [] [] 0) h.nonempty
    (fun r hr => (regOf_writing h hm hr).2.nbFrames)
  unfold createFilePar at ha
  dsimp only at ha
  refine returns_of_same (List.length_pos_of_ne_nil h.nonempty) ?_
  unfold createTrace
  dsimp only
  refine (registrations_same hal true mode [] [] 0).append ?_
  rw [registerRanks_snd, hsess] at ha ⊢
  exact program_same h hF hcount hD rfl rfl rfl _ hmem hnames hsized ha

example : AllReturn fun i : Fin 2 =>
    createTrace exConv exConv .write (exRanks.map FileRank.colls) (fun _ _ => 77) (fun _ _ => 78) (exMem 5) exParOps i :=
  C101_create_partial exRanks_ok exNumbered exRanks_counted exRanks_alike (Or.inl rfl) _ _ (by rw [exStored]; exact exMem_sized 5)
    exPar_names exPar_sized (by decide +kernel)

/-- The calls of that program on both processes. -/
example : ∀ i < 2, createTrace exConv exConv .write (exRanks.map FileRank.colls) (fun _ _ => 77) (fun _ _ => 78) (exMem 5)
    exParOps i = createTrace exConv exConv .write (exRanks.map FileRank.colls) (fun _ _ => 77) (fun _ _ => 78) (exMem 5) [] 0 ++
      [.putAll "T", .putAll "T", .putAll "u", .putAll "L", .beginIndep, .endIndep, .putAll "u", .beginIndep, .endIndep,
        .getAll "L", .beginIndep, .endIndep, .getAll "T", .getAll "T", .putAll "T", .putAll "T"] := by decide +kernel

theorem header_created (h : ProgramOk dom rs) (hm : mode = .write ∨ mode = .overwrite) (garbage : String → List Int → α)
    (garbageInt : String → List Int → Int) (mem : Memory α) (ops : List (FileOp (Memory α))) :
    ∀ r ∈ rs, (createFilePar conv convI mode (rs.map FileRank.colls) garbage garbageInt mem ops).disk.dims =
        (regOf mode [] [] 0 r).fileDims ∧
      (createFilePar conv convI mode (rs.map FileRank.colls) garbage garbageInt mem ops).disk.vars =
        (regOf mode [] [] 0 r).fileVars := by
  obtain ⟨r0, rest, hrs⟩ : ∃ r0 rest, rs = r0 :: rest := by
    cases hrs : rs with
    | nil => exact absurd hrs h.nonempty
    | cons a l => exact ⟨a, l, rfl⟩
  intro r hr
  obtain ⟨e1, e2, -⟩ := header_eq h hm (by rw [hrs]; simp : r0 ∈ rs) hr
  unfold createFilePar
  dsimp only
  rw [registerRanks_snd, headerOf_map hrs]
  exact ⟨e1, e2⟩

theorem use_return (h : ProgramOk dom rs) (hm : mode = .write ∨ mode = .overwrite) {D : FileDesc} (hD : Fits D dom rs)
    {d : Disk α} (hd : ∀ r ∈ rs, d.dims = (regOf mode [] [] 0 r).fileDims ∧ d.vars = (regOf mode [] [] 0 r).fileVars)
    {u : FileUse α} (hu : u.Prepared dom rs)
    (ha : ∀ o ∈ (useFilePar conv convI u.mode (u.ranks.map FileRank.colls) d u.mem u.ops).results, o.Agreed) :
    (AllReturn fun i : Fin u.ranks.length => useTrace conv convI u.mode (u.ranks.map FileRank.colls) d u.mem u.ops i) ∧
    ∀ r ∈ rs, (useFilePar conv convI u.mode (u.ranks.map FileRank.colls) d u.mem u.ops).disk.dims =
        (regOf mode [] [] 0 r).fileDims ∧
      (useFilePar conv convI u.mode (u.ranks.map FileRank.colls) d u.mem u.ops).disk.vars =
        (regOf mode [] [] 0 r).fileVars := by
  obtain ⟨r0, h0⟩ := List.exists_mem_of_ne_nil rs h.nonempty
  obtain ⟨hd1, hd2⟩ := hd r0 h0
  have hagain := fun r' hr' => regOf_again h hm h0 hu.ok hu.data hu.mode d.data.numrecs (r' := r') hr'
  dsimp only at hagain
  rw [← hd1, ← hd2] at hagain
  have hF : ∀ r ∈ u.ranks, RegOf u.mode r (regOf u.mode d.dims d.vars d.data.numrecs r) := fun r hr => (hagain r hr).2.1
  have hD' := fits_of_same h hD hu.ok hu.data
  have hsess := joinSess_created (mode := u.mode) (F := regOf u.mode d.dims d.vars d.data.numrecs) hu.ok.nonempty
    (fun r hr => (hagain r hr).2.2.2.2)
  constructor
  · unfold useFilePar at ha
    dsimp only at ha
    refine returns_of_same (List.length_pos_of_ne_nil hu.ok.nonempty) ?_
    unfold useTrace
    dsimp only
    refine (registrations_same hu.alike true u.mode d.dims d.vars d.data.numrecs).append ?_
    rw [registerRanks_snd, hsess] at ha ⊢
    exact program_same hu.ok hF hu.counted hD' rfl rfl rfl _ hu.mem hu.names hu.ops ha
  · obtain ⟨r1, rest, hrs⟩ : ∃ r1 rest, u.ranks = r1 :: rest := by
      cases hrs : u.ranks with
      | nil => exact absurd hrs hu.ok.nonempty
      | cons a l => exact ⟨a, l, rfl⟩
    obtain ⟨-, -, e1, e2, -⟩ := hagain r1 (by rw [hrs]; simp)
    intro r hr
    unfold useFilePar
    dsimp only
    rw [registerRanks_snd, headerOf_map hrs]
    dsimp only
    rw [e1, e2]
    exact hd r hr

theorem uses_return (h : ProgramOk dom rs) (hm : mode = .write ∨ mode = .overwrite) {D : FileDesc} (hD : Fits D dom rs)
    (us : List (FileUse α)) {d : Disk α}
    (hd : ∀ r ∈ rs, d.dims = (regOf mode [] [] 0 r).fileDims ∧ d.vars = (regOf mode [] [] 0 r).fileVars)
    (hus : ∀ u ∈ us, u.Prepared dom rs) (ha : ∀ p ∈ runUsesPar conv convI d us, ∀ o ∈ p.results, o.Agreed) :
    UsesReturn conv convI d us := by
  induction us generalizing d with
  | nil => trivial
  | cons u us ih =>
    obtain ⟨k1, k2⟩ := use_return h hm hD hd (hus u (List.mem_cons_self ..)) (ha _ (List.mem_cons_self ..))
    exact ⟨k1, ih k2 (fun u hu => hus u (List.mem_cons_of_mem _ hu)) fun p hp => ha p (List.mem_cons_of_mem _ hp)⟩

/-- **C101** A program creates a file, and other programs open it one after the other for reading or appending, each with any
number of processes and any decomposition.  If no call ends on some processes of its program with an exception and on others
without one, the processes of all programs come to their end. -/
theorem C101_programs_partial (h : ProgramOk dom rs) (hn : Numbered rs) (hcount : Counted rs) (hal : CallsAlike rs)
    (hm : mode = .write ∨ mode = .overwrite) (garbage : String → List Int → α) (garbageInt : String → List Int → Int)
    {mem : Memory α} (hmem : MemoryOf rs.length (storedNames rs) mem) {ops : List (FileOp (Memory α))}
    (hnames : ∀ op ∈ ops, NoLocalNames rs op) (hsized : ∀ op ∈ ops, op.Sized rs.length (storedNames rs))
    {us : List (FileUse α)} (hus : ∀ u ∈ us, u.Prepared dom rs)
    (ha : ∀ o ∈ (createFilePar conv convI mode (rs.map FileRank.colls) garbage garbageInt mem ops).results, o.Agreed)
    (hau : ∀ p ∈ runUsesPar conv convI (createFilePar conv convI mode (rs.map FileRank.colls) garbage garbageInt mem ops).disk us,
      ∀ o ∈ p.results, o.Agreed) :
    (AllReturn fun i : Fin rs.length =>
      createTrace conv convI mode (rs.map FileRank.colls) garbage garbageInt mem ops i) ∧
    UsesReturn conv convI (createFilePar conv convI mode (rs.map FileRank.colls) garbage garbageInt mem ops).disk us := by
  obtain ⟨D, hD, -⟩ := exists_fits h hn
  exact ⟨C101_create_partial h hn hcount hal hm garbage garbageInt hmem hnames hsized ha,
    uses_return h hm hD us (header_created h hm garbage garbageInt mem ops) hus hau⟩

theorem memoryOf_holds {mem : Memory α} {cur : String → Values α} (h : ProgramHolds rs mem cur) :
    MemoryOf rs.length (storedNames rs) mem := fun x hx => (h x hx).length_eq.symm

theorem sized_holds {ops : List (FileOp (Memory α))} {sops : List (FileOp (String → Values α))}
    (h : List.Forall₂ (SameOp (ProgramHolds rs)) ops sops) : ∀ op ∈ ops, op.Sized rs.length (storedNames rs) := by
  induction h with
  | nil => intro op h; cases h
  | cons a _ ih =>
    intro op hop
    rcases List.mem_cons.1 hop with rfl | hop
    · cases a with
      | compute h => exact memoryOf_holds h
      | _ => trivial
    · exact ih op hop

/-- **C101** If all calls succeed in the serial build, the processes of all programs come to their end in the parallel build. -/
theorem C101_serial_partial (hc : conv.Faithful) (hcI : convI.Faithful) (h : ProgramOk dom rs) (hn : Numbered rs)
    (hcount : Counted rs) (hal : CallsAlike rs) (hm : mode = .write ∨ mode = .overwrite)
    (garbage : String → List Int → α) (garbageInt : String → List Int → Int) {mem : Memory α} {cur : String → Values α}
    (hmem : ProgramHolds rs mem cur) {ops : List (FileOp (Memory α))} {sops : List (FileOp (String → Values α))}
    (hops : List.Forall₂ (SameOp (ProgramHolds rs)) ops sops) (hnames : ∀ op ∈ ops, NoLocalNames rs op)
    (hgap : Table.NoGaps (storedNames rs) ⟨true, 0, cur, fun _ _ => none⟩ sops) {us : List (FileUse α)}
    (hus : UsesOk dom rs (Table.run (storedNames rs) ⟨true, 0, cur, fun _ _ => none⟩ sops).2.cell us)
    (hcounts : ∀ u ∈ us, Counted u.ranks) (hals : ∀ u ∈ us, CallsAlike u.ranks)
    (hok : ∀ o ∈ (createFile mode (rs.map FileRank.colls) garbage garbageInt mem ops).results, o = .ok ())
    (hoks : ∀ p ∈ runUses (createFile mode (rs.map FileRank.colls) garbage garbageInt mem ops).disk us,
      ∀ o ∈ p.results, o = .ok ()) :
    (AllReturn fun i : Fin rs.length =>
      createTrace conv convI mode (rs.map FileRank.colls) garbage garbageInt mem ops i) ∧
    UsesReturn conv convI (createFilePar conv convI mode (rs.map FileRank.colls) garbage garbageInt mem ops).disk us := by
  obtain ⟨e1, e2⟩ := C99_programs_partial hc hcI h hn hcount hm garbage garbageInt hmem hops hnames hgap hus hcounts hok hoks
  obtain ⟨-, -, -, -, D, hD⟩ := create_has h hn hm garbage garbageInt hmem hops hnames hgap
  have agree : ∀ {l : List (Res Unit)}, (∀ o ∈ l, o = .ok ()) → ∀ o ∈ l.map together, o.Agreed := by
    intro l hl o ho
    obtain ⟨o', ho', rfl⟩ := List.mem_map.1 ho
    rw [hl o' ho']; trivial
  have oks : ∀ {us : List (FileUse α)} {d : Disk α} {cell}, FileHas dom rs mode D d cell → UsesOk dom rs cell us →
      ∀ u ∈ us, u.Ok dom rs := by
    intro us
    induction us with
    | nil => intro d cell _ _ u hu; cases hu
    | cons v us ih =>
      intro d cell hd hus u hu
      obtain ⟨h1, h2, h3⟩ := hus
      obtain ⟨h4, h5⟩ := h3 _ hd.nbFrames
      obtain ⟨-, -, -, -, k5⟩ := use_has h hm hd h1 h2 h4
      rcases List.mem_cons.1 hu with rfl | hu
      · exact h1
      · exact ih k5 h5 u hu
  refine C101_programs_partial h hn hcount hal hm garbage garbageInt (memoryOf_holds hmem) hnames (sized_holds hops)
    (fun u hu => ?_) ?_ ?_
  · have hu' := oks hD hus u hu
    exact ⟨hu'.ok, hu'.data, hu'.mode, memoryOf_holds hu'.mem, sized_holds hu'.ops, hu'.names, hcounts u hu, hals u hu⟩
  · rw [e1]; exact agree hok
  · rw [e2]
    intro p hp
    obtain ⟨q, hq, rfl⟩ := List.mem_map.1 hp
    exact agree (hoks q hq)

end

example :
    (AllReturn fun i : Fin 2 =>
      createTrace exConv exConv .write (exRanks.map FileRank.colls) (fun _ _ => 77) (fun _ _ => 78) (exMem 5) exParOps i) ∧
    UsesReturn exConv exConv (createFilePar exConv exConv .write (exRanks.map FileRank.colls) (fun _ _ => 77) (fun _ _ => 78)
      (exMem 5) exParOps).disk exParUses :=
  C101_serial_partial exConv_faithful exConv_faithful exRanks_ok exNumbered exRanks_counted exRanks_alike (Or.inl rfl) _ _
    (exRanks_hold 5) exPar_same exPar_names exPar_gaps exParUses_ok (by simp [exParUses, exRanks_counted, exRanks_counted'])
    (by simp [exParUses, exRanks_alike, exRanks_alike']) exPar_created (by decide +kernel)

/-- The programs of `exParUses`, and one whose calls are refused. -/
def exRefusedUses : List (FileUse Int) :=
  exParUses ++ [⟨exRanks, .read, exMem 0, exVal 0, [.read 9 ["u"], .write 0 ["u"], .readAll 1], []⟩]

theorem exRefusedUses_prepared : ∀ u ∈ exRefusedUses, u.Prepared [3] exRanks := by
  intro u hu
  simp only [exRefusedUses, exParUses, List.cons_append, List.nil_append, List.mem_cons, List.not_mem_nil, or_false] at hu
  have hlocal : ∀ op ∈ [FileOp.appendFrame (C := Memory Int), .writeAll (-1), .write 0 ["u"], .readAll 2, .read 0 ["u"],
      .read 9 ["u"], .write 0 ["u"], .readAll 1], NoLocalNames exRanks op ∧ NoLocalNames exRanks' op := by
    simp [NoLocalNames, localNames, exRanks, exRanks', exProc, exCollG, exCollL]
  have hs : ∀ op ∈ [FileOp.appendFrame (C := Memory Int), .writeAll (-1), .write 0 ["u"], .readAll 2, .read 0 ["u"],
      .read 9 ["u"], .write 0 ["u"], .readAll 1], ∀ n l, op.Sized n l := by
    simp [FileOp.Sized]
  rcases hu with rfl | rfl | rfl
  · exact ⟨exRanks_ok', exSameData, Or.inr rfl, memoryOf_holds (exRanks_hold' 30),
      fun op hop => hs op (by revert op; simp) _ _, fun op hop => (hlocal op (by revert op; simp)).2, exRanks_counted',
      exRanks_alike'⟩
  · exact ⟨exRanks_ok, exSelf, Or.inl rfl, memoryOf_holds (exRanks_hold 0),
      fun op hop => hs op (by revert op; simp) _ _, fun op hop => (hlocal op (by revert op; simp)).1, exRanks_counted,
      exRanks_alike⟩
  · exact ⟨exRanks_ok, exSelf, Or.inl rfl, memoryOf_holds (exRanks_hold 0),
      fun op hop => hs op (by revert op; simp) _ _, fun op hop => (hlocal op (by revert op; simp)).1, exRanks_counted,
      exRanks_alike⟩

example :
    (AllReturn fun i : Fin 2 =>
      createTrace exConv exConv .write (exRanks.map FileRank.colls) (fun _ _ => 77) (fun _ _ => 78) (exMem 5) exParOps i) ∧
    UsesReturn exConv exConv (createFilePar exConv exConv .write (exRanks.map FileRank.colls) (fun _ _ => 77) (fun _ _ => 78)
      (exMem 5) exParOps).disk exRefusedUses :=
  C101_programs_partial exRanks_ok exNumbered exRanks_counted exRanks_alike (Or.inl rfl) _ _ (memoryOf_holds (exRanks_hold 5))
    exPar_names exPar_sized exRefusedUses_prepared (by decide +kernel) (by decide +kernel)

/-! ### Processes that wait for ever -/

/-- The same domain as `exRanks`; all pixels of the local collection are on the first process. -/
def exUneven : List FileRank :=
  [exProc .colMajor .colMajor 2 0 [0, 1] 0, exProc .colMajor .rowMajor 1 2 [] 2]

theorem exUneven_ok : ProgramOk [3] exUneven := by
  refine ⟨by simp [exUneven], by decide, ?_, ?_, ?_, ?_, ?_, ?_⟩
  · intro r hr
    simp only [exUneven, List.mem_cons, List.not_mem_nil, or_false] at hr
    rcases hr with rfl | rfl <;>
      exact exProc_ok (by simp) (by simp) (by decide) (by decide) (by decide) (by decide)
  · simp only [exUneven, List.pairwise_cons, List.mem_singleton, forall_eq, List.not_mem_nil, false_imp_iff, implies_true,
      List.Pairwise.nil, and_true]
    intro g h1 h2
    obtain ⟨i, rfl, h3, h4⟩ := exAt h1
    obtain ⟨j, hj, h5, h6⟩ := exAt h2
    simp at hj
    omega
  · intro g hg
    rcases exBox hg with rfl | rfl | rfl <;> decide +kernel
  · intro r hr r' hr'
    simp only [exUneven, List.mem_cons, List.not_mem_nil, or_false] at hr hr'
    rcases hr with rfl | rfl <;> rcases hr' with rfl | rfl <;> simp only [exProc_sig]
  · intro r hr c hc nb sh loc h x hx
    simp only [exUneven, List.mem_cons, List.not_mem_nil, or_false] at hr
    rcases hr with rfl | rfl <;> simp only [exProc, List.mem_cons, List.not_mem_nil, or_false] at hc <;>
      rcases hc with rfl | rfl <;> try (cases h; done)
    all_goals
      rw [exCollG_store] at hx
      simp only [List.mem_cons, List.not_mem_nil, or_false] at hx
      rcases hx with rfl | rfl <;> exact ⟨rfl, rfl⟩
  · intro r hr c hc ids total off h
    simp only [exUneven, List.mem_cons, List.not_mem_nil, or_false] at hr
    rcases hr with rfl | rfl <;> simp only [exProc, List.mem_cons, List.not_mem_nil, or_false] at hc <;>
      rcases hc with rfl | rfl <;> cases h
    all_goals
      refine ⟨by decide, fun x hx => ?_⟩
      rw [exCollL_store, List.mem_singleton] at hx
      subst hx
      exact Or.inl rfl

theorem exUneven_numbered : Numbered exUneven := by
  intro before r after h l ids total off hl
  have hr : r = exProc .colMajor .colMajor 2 0 [0, 1] 0 ∧ before = [] ∨
      r = exProc .colMajor .rowMajor 1 2 [] 2 ∧ before = [exProc .colMajor .colMajor 2 0 [0, 1] 0] := by
    match before, h with
    | [], h => left; injection h with h1; exact ⟨h1.symm, rfl⟩
    | [a], h =>
      right
      injection h with h1 h2
      injection h2 with h3
      exact ⟨h3.symm, by rw [h1]⟩
    | a :: b :: c, h =>
      injection h with h1 h2
      injection h2 with h3 h4
      exact absurd h4.symm (by simp)
  rcases hr with ⟨rfl, rfl⟩ | ⟨rfl, rfl⟩ <;>
  · rw [exProc_local] at hl
    split at hl
    · subst_vars
      cases hl
      simp [exUneven, exProc_ids]
    · cases hl

theorem exUneven_counted : Counted exUneven := by
  intro r hr e he hk
  simp only [exUneven, List.mem_cons, List.not_mem_nil, or_false] at hr
  rcases hr with rfl | rfl <;>
  · rw [exProc_entries] at he
    simp only [List.mem_cons, List.not_mem_nil, or_false] at he
    rcases he with rfl | rfl | rfl
    · decide
    · decide
    · cases hk

theorem exUneven_alike : CallsAlike exUneven := by
  constructor
  · intro r hr r' hr'
    simp only [exUneven, List.mem_cons, List.not_mem_nil, or_false] at hr hr'
    rcases hr with rfl | rfl <;> rcases hr' with rfl | rfl <;>
      exact exProc_alike (by simp) (by simp) (by simp) (by simp) ..
  · intro r hr
    simp only [exUneven, List.mem_cons, List.not_mem_nil, or_false] at hr
    rcases hr with rfl | rfl <;> exact exProc_placed (by decide)

theorem exUneven_stored : storedNames exUneven = ["T", "u", "p"] := by
  simp [storedNames, exUneven, exProc_entries]

def exUnevenMem : Memory Int := fun _ => [⟨[0, 1], [fun a => some a, fun a => some (10 + a)]⟩, ⟨[0, 1], [fun a => some a, fun a => some (20 + a)]⟩]

/-- A frame is appended and a local field is read before it is written. -/
def exUnevenOps : List (FileOp (Memory Int)) := [.appendFrame, .writeAll 0, .appendFrame, .read 1 ["p"]]

/-- **C101** The processes of a program that creates a file, registers the same collections and makes the same calls on all
processes come to their end. -/
def C101_statement : Prop :=
  ∀ (dom : List Int) (rs : List FileRank) (mem : Memory Int) (ops : List (FileOp (Memory Int))), ProgramOk dom rs → Numbered rs →
    Counted rs → CallsAlike rs → MemoryOf rs.length (storedNames rs) mem → (∀ op ∈ ops, NoLocalNames rs op) →
    (∀ op ∈ ops, op.Sized rs.length (storedNames rs)) →
    AllReturn fun i : Fin rs.length =>
      createTrace exConv exConv .write (rs.map FileRank.colls) (fun _ _ => 77) (fun _ _ => 78) mem ops i

theorem exUneven_traces : ∃ c,
    createTrace exConv exConv .write (exUneven.map FileRank.colls) (fun _ _ => 77) (fun _ _ => 78) exUnevenMem exUnevenOps 0 =
      c ++ [.beginIndep] ∧
    createTrace exConv exConv .write (exUneven.map FileRank.colls) (fun _ _ => 77) (fun _ _ => 78) exUnevenMem exUnevenOps 1 =
      c ++ [.beginIndep, .endIndep] :=
  ⟨(createTrace exConv exConv .write (exUneven.map FileRank.colls) (fun _ _ => 77) (fun _ _ => 78) exUnevenMem
      exUnevenOps 0).dropLast, by decide +kernel, by decide +kernel⟩

/-- **C101** does not hold: a local field is read in a frame that has been appended and not written; the process with pixels
raises an error and the process without pixels waits for it for ever. -/
theorem C101_false : ¬ C101_statement := by
  intro h
  have h1 := h [3] exUneven exUnevenMem exUnevenOps exUneven_ok exUneven_numbered exUneven_counted exUneven_alike
    (by rw [exUneven_stored]; intro x _; rfl)
    (by simp [exUnevenOps, NoLocalNames, localNames, exUneven, exProc, exCollG, exCollL])
    (by simp [exUnevenOps, FileOp.Sized])
  have h2 := (C98_returns_iff (by decide) _).1.1 h1 ⟨0, by decide⟩ ⟨1, by decide⟩
  obtain ⟨c, e0, e1⟩ := exUneven_traces
  have h3 : c ++ [CollCall.beginIndep] = c ++ [.beginIndep, .endIndep] := e0.symm.trans (h2.trans e1)
  simp at h3

/-- The serial build raises an error there and goes on; the parallel build does not come back. -/
example :
    (createFile .write (exUneven.map FileRank.colls) (fun _ _ => 77) (fun _ _ => 78) exUnevenMem exUnevenOps).results =
      [.ok (), .ok (), .ok (), .throw .fileIOError] ∧
    (createFilePar exConv exConv .write (exUneven.map FileRank.colls) (fun _ _ => 77) (fun _ _ => 78) exUnevenMem
      exUnevenOps).results = [.ok (), .ok (), .ok (), .apart] := by
  decide +kernel

/-! ### Local fields: examples -/

def exLocalCall (numrecs : Int) : Joint (List (Mem Int)) :=
  (getCall exConv false 3 2 0 numrecs ⟨fileShape exLocalVar.dims, .double, fun _ => 0⟩
    [(exReaderA.v, exReaderA.marks, exReaderA.buf), (exReaderB.v, exReaderB.marks, exReaderB.buf)]).1

def Joint.tag {β : Type} : Joint β → Nat
  | .ok _ => 0
  | .throw _ => 1
  | .ub => 2
  | .apart => 3

theorem exLocalParts : ∀ w ∈ [(exReaderA.v, exReaderA.marks, exReaderA.buf), (exReaderB.v, exReaderB.marks, exReaderB.buf)],
    w.1.Registered ∧ w.1.name = "plastic" ∧ w.1.field.isGlobal = false := by
  intro w hw
  simp only [List.mem_cons, List.not_mem_nil, or_false] at hw
  have h0 := exReaders_ok 0
  have h1 := exReaders_ok 1
  rcases hw with rfl | rfl
  · obtain ⟨⟨n, hf⟩, ht, ⟨l, m, hr⟩, -⟩ := h0
    exact ⟨.inr ⟨_, _, _, _, _, _, _, hf, ht, hr⟩, rfl, rfl⟩
  · obtain ⟨⟨n, hf⟩, ht, ⟨l, m, hr⟩, -⟩ := h1
    exact ⟨.inr ⟨_, _, _, _, _, _, _, hf, ht, hr⟩, rfl, rfl⟩

/-- One process with pixels and one without: the frame is in the file, and it is not. -/
example : Joint.tag (exLocalCall 3) = 0 ∧ Joint.tag (exLocalCall 2) = 3 := by decide +kernel

/-- Writing: into a file opened for reading. -/
example :
    let ws := [(exReaderA.v, exReaderA.marks, exReaderA.buf), (exReaderB.v, exReaderB.marks, exReaderB.buf)]
    Joint.tag (putCall exConv false false 3 2 0 ws ⟨fileShape exLocalVar.dims, .double, fun _ => 0⟩).1 = 3 ∧
    putTrace exConv false false 3 2 0 ws ⟨fileShape exLocalVar.dims, .double, fun _ => 0⟩ 0 = [.beginIndep] ∧
    putTrace exConv false false 3 2 0 ws ⟨fileShape exLocalVar.dims, .double, fun _ => 0⟩ 1 = [.beginIndep, .endIndep] ∧
    ∃ q, Meets (fun i : Fin ws.length =>
      putTrace exConv false false 3 2 0 ws ⟨fileShape exLocalVar.dims, .double, fun _ => 0⟩ i) q ∧ Waits q := by
  intro ws
  have e : Joint.tag (putCall exConv false false 3 2 0 ws ⟨fileShape exLocalVar.dims, .double, fun _ => 0⟩).1 = 3 := by
    decide +kernel
  have h : (putCall exConv false false 3 2 0 ws ⟨fileShape exLocalVar.dims, .double, fun _ => 0⟩).1 = .apart := by
    generalize (putCall exConv false false 3 2 0 ws ⟨fileShape exLocalVar.dims, .double, fun _ => 0⟩).1 = j at e ⊢
    cases j <;> cases e
    rfl
  exact ⟨e, by decide +kernel, by decide +kernel,
    (C101_write_local (by simp [ws]) exLocalParts (by rw [h]; simp)).2 h⟩

end Verif.Props
