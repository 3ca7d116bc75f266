import Verif.Lemmas.ParallelPyFrames
import Verif.Props.PyFrames
import Verif.Props.CollectiveFrames
/-
**C107** Python programs with frame objects and iterators in the parallel build.
-/
namespace Verif.Props
open Verif Verif.Ccoord Verif.Layout Verif.Layout.FieldLayout Verif.RawMemory Verif.FileIO Verif.NetCDF

variable {α : Type} {conv : Conv α} {convI : Conv Int} {dom : List Int} {rs rs' : List FileRank} {mode : OpenMode} {late : Bool}

/-! ### The same in both builds -/

theorem py_create_par (hc : conv.Faithful) (hcI : convI.Faithful) (h : Verif.ProgramOk dom rs) (hn : Numbered rs) (hcount : Counted rs)
    (hm : mode = .write ∨ mode = .overwrite) (garbage : String → List Int → α) (garbageInt : String → List Int → Int)
    {mem : Memory α} {cur : String → Values α} (hmem : ProgramHolds rs mem cur) {xs : List (PyFrameStep (Memory α))}
    {ys : List (PyFrameStep (String → Values α))} (hs : List.Forall₂ (SameStep (ProgramHolds rs)) xs ys)
    (hnames : ∀ x ∈ xs, x.Uses fun u => NoLocalNames rs (u.op (C := Memory α) 0))
    (hfit : FrameTable.Fits late (storedNames rs) ⟨⟨true, 0, cur, fun _ _ => none⟩, [], []⟩ ys) :
    createPyFramesPar conv convI mode (rs.map FileRank.colls) garbage garbageInt mem xs =
      pyInParallel (createPyFrames mode (rs.map FileRank.colls) garbage garbageInt mem xs) := by
  obtain ⟨D, hD, hM⟩ := exists_fits h hn
  have hF : ∀ r ∈ rs, RegOf mode r (regOf mode [] [] 0 r) := fun r hr => regOf_new h hm hr
  have hreg := registered_of h hD hF
  have hcon := created_contains hreg garbage garbageInt
  have hsess := joinSess_created (mode := mode) (F := regOf mode [] [] 0) h.nonempty
    (fun r hr => (regOf_writing h hm hr).2.nbFrames)
  have main := py_both_run (conv := conv) (convI := convI) hreg (hreg.writeLaw hm) hc hcI
    (hs.imp fun _ _ => sameStep_congr (fun m c => (programHolds_iff h hF m c).1))
    (fun x hx => py_uses_mono (fun u hu => noHidden_of h hF _ hu) (hnames x hx)) (fun e => by rcases hm with rfl | rfl <;> cases e)
    (s := ⟨⟨Sess.created mode (joinVars (rs.map (regOf mode [] [] 0))) (joinHidden (rs.map (regOf mode [] [] 0)))
      (joinMarks (rs.map (regOf mode [] [] 0))), NcFile.created _ _ garbage garbageInt, mem⟩, [], []⟩)
    (t := ⟨⟨true, 0, cur, fun _ _ => none⟩, [], []⟩) (by rw [storedNames_eq h hF]; exact hfit)
    ⟨⟨⟨rfl, rfl, rfl, by rcases hm with rfl | rfl <;> simp, rfl, le_refl _, le_refl _, by
      intro x hx l hl
      obtain ⟨fv, e1, e2, -⟩ := hcon.entries x hx l hl
      refine ⟨?_, fv, e1, e2, by simp [Sess.created], ?_⟩
      · obtain ⟨r, hr, y, hy⟩ := var_local h hF hx hl
        exact marks_entries h hF hm hr hy fun r hr ids total off hl => hM r hr l ids total off hl
      · rintro ⟨fr, v, hcv⟩
        exact absurd hcv (by simp), hcon.agrees⟩, (programHolds_iff h hF mem cur).1 hmem,
      ready_program h hF hcount hD rfl rfl hcon mem⟩, rfl, .nil⟩
  have e := main
  rw [inPar] at e
  unfold createPyFrames createPyFramesPar
  dsimp only
  rw [registerRanks_snd, hsess]
  unfold Sess.created at e
  rw [e]
  rfl

theorem use_py_par (hc : conv.Faithful) (hcI : convI.Faithful) (h : Verif.ProgramOk dom rs)
    (hm : mode = .write ∨ mode = .overwrite) {D : FileDesc} {d : Disk α} {cell : Int → String → Option (Values α)}
    (hd : FileHas dom rs mode D d cell) {u : PyFrameSession α} (hu : u.Ok dom rs) (hcount : Counted u.ranks)
    (happ : u.mode = .append → ∀ r ∈ rs, ∀ e ∈ r.entries, ∀ l total, e.1 = some (l, total) →
        ∃ e' ∈ r.entries, e'.1 = some (l, total) ∧ HasCell cell e'.2.1)
    (hfit : (u.table cell d.data.numrecs).Fits late (storedNames rs) u.ssteps) :
    usePyFramesPar conv convI u.mode (u.ranks.map FileRank.colls) d u.mem u.steps =
      pyInParallel (usePyFrames u.mode (u.ranks.map FileRank.colls) d u.mem u.steps) := by
  obtain ⟨r0, rest, hrs⟩ : ∃ r0 rest, rs = r0 :: rest := by
    cases hrs : rs with
    | nil => exact absurd hrs h.nonempty
    | cons a l => exact ⟨a, l, rfl⟩
  have h0 : r0 ∈ rs := by rw [hrs]; simp
  obtain ⟨hd1, hd2⟩ := hd.header r0 h0
  have hF0 : ∀ r ∈ rs, RegOf mode r (regOf mode [] [] 0 r) := fun r hr => regOf_new h hm hr
  have hagain := fun r' hr' => regOf_again h hm h0 hu.ok hu.data hu.mode d.data.numrecs (r' := r') hr'
  dsimp only at hagain
  rw [← hd1, ← hd2] at hagain
  have hF : ∀ r ∈ u.ranks, RegOf u.mode r (regOf u.mode d.dims d.vars d.data.numrecs r) := fun r hr => (hagain r hr).2.1
  have hD := fits_of_same h hd.fits hu.ok hu.data
  have hreg0 := registered_of h hd.fits hF0
  have hreg := registered_of hu.ok hD hF
  have hsig := signature_eq h hF0 hu.ok hF hu.data
  have hcont := C62_any_program hreg0 hreg hsig hd.values
  have hnm : storedNames rs = storedNames u.ranks := by
    rw [← storedNames_eq h hF0, ← storedNames_eq hu.ok hF]
    have := congrArg (List.map Prod.fst) hsig
    rwa [List.map_map, List.map_map] at this
  have hsess := joinSess_created (mode := u.mode) (F := regOf u.mode d.dims d.vars d.data.numrecs) hu.ok.nonempty
    (fun r hr => (hagain r hr).2.2.2.2)
  have hmarks : ∀ x ∈ joinVars (u.ranks.map (regOf u.mode d.dims d.vars d.data.numrecs)), ∀ l, x.localName = some l →
      (joinMarks (u.ranks.map (regOf u.mode d.dims d.vars d.data.numrecs)) l).map List.length =
        ((progOf u.ranks).hid l).map HiddenPart.size := by
    intro x hx l hl
    obtain ⟨r, hr, y, hy⟩ := var_local hu.ok hF hx hl
    exact marks_lengths hu.ok hF hu.mode hr hy
  obtain ⟨r1, rest1, hrs1⟩ : ∃ r0 rest, u.ranks = r0 :: rest := by
    cases hrs : u.ranks with
    | nil => exact absurd hrs hu.ok.nonempty
    | cons a l => exact ⟨a, l, rfl⟩
  have h1 : r1 ∈ u.ranks := by rw [hrs1]; simp
  have hnn : 0 ≤ d.data.numrecs := by
    rcases hcont.last with h | ⟨n, val, h⟩
    · omega
    · have := hcont.recs _ _ _ h; omega
  have hready := ready_program (s := Sess.opened u.mode (joinVars (u.ranks.map (regOf u.mode d.dims d.vars d.data.numrecs)))
    (joinHidden (u.ranks.map (regOf u.mode d.dims d.vars d.data.numrecs)))
    (joinMarks (u.ranks.map (regOf u.mode d.dims d.vars d.data.numrecs))) d.data) hu.ok hF hcount hD rfl rfl hcont u.mem
  have hmem := (programHolds_iff hu.ok hF _ _).1 hu.mem
  have hsame := hu.same.imp fun _ _ => sameStep_congr (fun m c => (programHolds_iff hu.ok hF m c).1)
  have hhid := fun x hx => py_uses_mono (fun f hf => noHidden_of hu.ok hF (joinVars (u.ranks.map (regOf u.mode d.dims d.vars d.data.numrecs))) hf)
    (hu.names x hx)
  rw [hnm, ← storedNames_eq hu.ok hF] at hfit
  obtain ⟨w0, hw0⟩ : ∃ w0 : World α, w0 = ⟨Sess.opened u.mode (joinVars (u.ranks.map (regOf u.mode d.dims d.vars d.data.numrecs)))
    (joinHidden (u.ranks.map (regOf u.mode d.dims d.vars d.data.numrecs)))
    (joinMarks (u.ranks.map (regOf u.mode d.dims d.vars d.data.numrecs))) d.data, d.data, u.mem⟩ := ⟨_, rfl⟩
  have main : ParPyFrames.run conv convI (inPar ⟨w0, [], []⟩) u.steps =
      ((PyFrames.run ⟨w0, [], []⟩ u.steps).1.map allGet, inPar (PyFrames.run ⟨w0, [], []⟩ u.steps).2) := by
    rw [hw0]
    rcases hu.mode with hr | ha
    · refine (py_both_run hreg (hreg.openLaw (mode := u.mode) (all := false) (by rw [hr]; simp)) hc hcI hsame hhid
        (fun e x hx => py_uses_mono (fun f hf => refused_of hu.ok hF hf) (hu.refused hr x hx)) (t := u.table cell d.data.numrecs) hfit
        ⟨⟨⟨rfl, rfl, rfl, by rw [PyFrameSession.table, hr]; simp, rfl, hnn, le_refl _, ?_, hcont.agrees⟩, hmem, hready⟩, rfl, .nil⟩)
      intro x hx l hl
      obtain ⟨fv, e1, e2, e3⟩ := hcont.entries x hx l hl
      exact ⟨hmarks x hx l hl, by simp [Sess.opened], fv, e1, e2, fun hh => e3 (hh.resolve_left (by simp))⟩
    · refine (py_both_run hreg (hreg.openLaw (mode := u.mode) (all := true) (by rw [ha]; simp)) hc hcI hsame hhid
        (fun e => by rw [ha] at e; cases e) (t := u.table cell d.data.numrecs) hfit
        ⟨⟨⟨rfl, rfl, rfl, by rw [PyFrameSession.table, ha]; simp, rfl, hnn, le_refl _, ?_, hcont.agrees⟩, hmem, hready⟩, rfl, .nil⟩)
      intro x hx l hl
      obtain ⟨fv, e1, e2, -⟩ := hcont.entries x hx l hl
      refine ⟨hmarks x hx l hl, by simp [Sess.opened], fv, e1, e2, fun _ => ?_⟩
      have hx' := hx
      rw [joinVars_eq hu.ok hF hrs1] at hx'
      obtain ⟨e, he, rfl⟩ := List.mem_map.1 hx'
      obtain ⟨e0, he0, g1, g2, -⟩ := sig_entry (hu.data.same r0 h0 r1 h1).symm he
      cases hk : e.1 with
      | none => rw [varOf, hk] at hl; cases hl
      | some y =>
        obtain ⟨l', total⟩ := y
        have hll : l' = l := by
          rw [varOf, hk] at hl
          exact Option.some.inj hl
        obtain ⟨e0', he0', k1, k2⟩ := happ ha r0 h0 e0 he0 l' total (g1.trans hk)
        obtain ⟨e', he', j1, j2, -⟩ := sig_entry (hu.data.same r0 h0 r1 h1) he0'
        obtain ⟨fv', e1', -, e3'⟩ := hcont.entries (varOf u.ranks e') (by
          rw [joinVars_eq hu.ok hF hrs1]
          exact List.mem_map_of_mem he') l (by rw [varOf, j1, k1, hll]; rfl)
        rw [e1] at e1'
        cases e1'
        exact e3' (by show HasCell cell e'.2.1; rw [j2]; exact k2)
  unfold usePyFrames usePyFramesPar
  dsimp only
  rw [registerRanks_snd, hsess]
  rw [hw0, inPar] at main
  unfold Sess.opened at main
  rw [main]
  rfl

theorem py_sessions_par (hc : conv.Faithful) (hcI : convI.Faithful) (h : Verif.ProgramOk dom rs)
    (hm : mode = .write ∨ mode = .overwrite) {D : FileDesc} (us : List (PyFrameSession α)) {d : Disk α}
    {cell : Int → String → Option (Values α)} (hd : FileHas dom rs mode D d cell) (hus : PySessionsOk late dom rs cell us)
    (hcount : ∀ u ∈ us, Counted u.ranks) :
    runPySessionsPar conv convI d us = (runPySessions d us).map pyInParallel := by
  induction us generalizing d cell with
  | nil => rfl
  | cons u us ih =>
    obtain ⟨h1, h2, h3⟩ := hus
    obtain ⟨h4, h5⟩ := h3 _ hd.nbFrames
    obtain ⟨-, -, -, k4⟩ := use_py_has h hm hd h1 h2 h4
    have e := use_py_par hc hcI h hm hd h1 (hcount u (List.mem_cons_self ..)) h2 h4
    rw [runPySessionsPar, runPySessions, e, List.map_cons]
    congr 1
    exact ih k4 h5 fun u hu => hcount u (List.mem_cons_of_mem _ hu)

/-- **C107** A python program creates a file and uses it with frame objects and iterators in any order, other python programs open it
one after the other, each with any number of processes and any decomposition, and do the same.  In the parallel build all processes get
from every step what the program gets in the serial build, with the same values in memory and the same file.  (No program reads what has
not been written or begins to write a local field to a file that is open for reading.) -/
theorem C107_same (hc : conv.Faithful) (hcI : convI.Faithful) (h : Verif.ProgramOk dom rs) (hn : Numbered rs)
    (hcount : Counted rs) (hm : mode = .write ∨ mode = .overwrite) (garbage : String → List Int → α)
    (garbageInt : String → List Int → Int) {mem : Memory α} {cur : String → Values α} (hmem : ProgramHolds rs mem cur)
    {xs : List (PyFrameStep (Memory α))} {ys : List (PyFrameStep (String → Values α))} (hs : List.Forall₂ (SameStep (ProgramHolds rs)) xs ys)
    (hnames : ∀ x ∈ xs, x.Uses fun u => NoLocalNames rs (u.op (C := Memory α) 0))
    (hfit : FrameTable.Fits late (storedNames rs) ⟨⟨true, 0, cur, fun _ _ => none⟩, [], []⟩ ys) {us : List (PyFrameSession α)}
    (hus : PySessionsOk late dom rs (FrameTable.run late (storedNames rs) ⟨⟨true, 0, cur, fun _ _ => none⟩, [], []⟩ ys).2.table.cell us)
    (hcounts : ∀ u ∈ us, Counted u.ranks) :
    let r := createPyFrames mode (rs.map FileRank.colls) garbage garbageInt mem xs
    let r' := createPyFramesPar conv convI mode (rs.map FileRank.colls) garbage garbageInt mem xs
    r' = pyInParallel r ∧ runPySessionsPar conv convI r'.2.1 us = (runPySessions r.2.1 us).map pyInParallel := by
  intro r r'
  have e : r' = pyInParallel r := py_create_par hc hcI h hn hcount hm garbage garbageInt hmem hs hnames hfit
  obtain ⟨-, -, -, D, hD⟩ := create_py_has h hn hm garbage garbageInt hmem hs hnames hfit
  refine ⟨e, ?_⟩
  rw [e]
  exact py_sessions_par hc hcI h hm us hD hus hcounts

/-! ### Collective calls -/

theorem gets_agreed {os : List (Res (PyFrameOut Int))} {bs : List (Option (PyFrameOut Nat))} (h : List.Forall₂ Gives os bs) :
    ∀ o ∈ os.map allGet, o.Agreed := by
  induction h with
  | nil => intro o ho; cases ho
  | @cons o b os bs h _ ih =>
    intro o' ho'
    rcases List.mem_cons.1 ho' with rfl | ho'
    · cases o with
      | ok x => trivial
      | throw e => trivial
      | ub => exact absurd h id
    · exact ih o' ho'

theorem py_computes_holds {xs : List (PyFrameStep (Memory α))} {ys : List (PyFrameStep (String → Values α))}
    (h : List.Forall₂ (SameStep (ProgramHolds rs)) xs ys) : ∀ x ∈ xs, x.Computes (MemoryOf rs.length (storedNames rs)) := by
  induction h with
  | nil => intro x hx; cases hx
  | cons h _ ih =>
    intro x hx
    rcases List.mem_cons.1 hx with rfl | hx
    · cases h with
      | compute hc => exact memoryOf_holds hc
      | _ => trivial
    · exact ih x hx

/-- **C107** Any steps in any state.  If every step ends in the same way on all processes, all processes have made the same collective
calls, and none waits for ever. -/
theorem C107_steps {n : Nat} (hn : 0 < n) {s : ParPyFrames α} (h : s.world.Matched n) {xs : List (PyFrameStep (Memory α))}
    (ho : ∀ x ∈ xs, x.Uses fun u => NoHidden s.world.sess.vars s.world.sess.hidden (u.op (C := Memory α) 0))
    (hs : ∀ x ∈ xs, x.Computes (MemoryOf n (s.world.sess.vars.map SessVar.name)))
    (ha : ∀ o ∈ (s.run conv convI xs).1, o.Agreed) :
    (∀ i j, i < n → j < n → ParPyFrames.runTrace conv convI i s xs = ParPyFrames.runTrace conv convI j s xs) ∧
      AllReturn fun i : Fin n => ParPyFrames.runTrace conv convI i s xs := by
  have hs := py_calls_run (conv := conv) (convI := convI) xs s h ho hs ha
  refine ⟨fun i j hi hj => ?_, returns_of_same hn hs⟩
  obtain ⟨c, hc⟩ := hs
  exact (hc i hi).trans (hc j hj).symm

/-- Two iterators and frame objects that are used in turn. -/
example :
    (ParPyFrames.run exConv exConv ⟨⟨exParWorld, false⟩, [], []⟩ (exPyProg (exMem 1000))).1.length = 21 ∧
    ∀ i < 2, ParPyFrames.runTrace exConv exConv i ⟨⟨exParWorld, false⟩, [], []⟩ (exPyProg (exMem 1000)) =
      [.putAll "T", .putAll "T", .putAll "u", .putAll "L", .beginIndep, .endIndep, .putAll "T", .putAll "T", .putAll "u",
        .beginIndep, .endIndep, .putAll "T", .putAll "T", .putAll "u", .beginIndep, .endIndep, .putAll "u", .getAll "u",
        .getAll "T", .getAll "T", .getAll "u", .getAll "L", .beginIndep, .endIndep] := by
  decide +kernel

theorem py_program_calls (h : Verif.ProgramOk dom rs) {F : FileRank → Reg} (hF : ∀ r ∈ rs, RegOf mode r (F r)) (hcount : Counted rs)
    {D : FileDesc} (hD : Fits D dom rs) {s : Sess} (hs : s.vars = joinVars (rs.map F)) (hh : s.hidden = joinHidden (rs.map F))
    (hk : s.marks = joinMarks (rs.map F)) (file : NcFile α) {mem : Memory α} (hmem : MemoryOf rs.length (storedNames rs) mem)
    {xs : List (PyFrameStep (Memory α))} (hnames : ∀ x ∈ xs, x.Uses fun u => NoLocalNames rs (u.op (C := Memory α) 0))
    (hsized : ∀ x ∈ xs, x.Computes (MemoryOf rs.length (storedNames rs)))
    (ha : ∀ o ∈ (ParPyFrames.run conv convI ⟨⟨⟨s, file, mem⟩, false⟩, [], []⟩ xs).1, o.Agreed) :
    Same rs.length fun i => ParPyFrames.runTrace conv convI i ⟨⟨⟨s, file, mem⟩, false⟩, [], []⟩ xs := by
  refine py_calls_run xs _ (matched_program h hF hcount hD hs hh hk file hmem false) ?_ ?_ ha
  · show ∀ x ∈ xs, x.Uses fun u => NoHidden s.vars s.hidden (u.op (C := Memory α) 0)
    rw [hs, hh]
    exact fun x hx => py_uses_mono (fun u hu => noHidden_of h hF _ hu) (hnames x hx)
  · show ∀ x ∈ xs, x.Computes (MemoryOf rs.length (s.vars.map SessVar.name))
    rw [hs, joinVars_stored h hF]
    exact hsized

theorem py_create_return (h : Verif.ProgramOk dom rs) (hn : Numbered rs) (hcount : Counted rs) (hal : CallsAlike rs)
    (hm : mode = .write ∨ mode = .overwrite) (garbage : String → List Int → α) (garbageInt : String → List Int → Int)
    {mem : Memory α} (hmem : MemoryOf rs.length (storedNames rs) mem) {xs : List (PyFrameStep (Memory α))}
    (hnames : ∀ x ∈ xs, x.Uses fun u => NoLocalNames rs (u.op (C := Memory α) 0))
    (hsized : ∀ x ∈ xs, x.Computes (MemoryOf rs.length (storedNames rs)))
    (ha : ∀ o ∈ (createPyFramesPar conv convI mode (rs.map FileRank.colls) garbage garbageInt mem xs).1, o.Agreed) :
    AllReturn fun i : Fin rs.length =>
      createPyTrace conv convI mode (rs.map FileRank.colls) garbage garbageInt mem xs i := by
  obtain ⟨D, hD, -⟩ := exists_fits h hn
  have hF : ∀ r ∈ rs, RegOf mode r (regOf mode [] [] 0 r) := fun r hr => regOf_new h hm hr
  have hsess := joinSess_created (mode := mode) (F := regOf mode [] [] 0) h.nonempty
    (fun r hr => (regOf_writing h hm hr).2.nbFrames)
  unfold createPyFramesPar at ha
  dsimp only at ha
  refine returns_of_same (List.length_pos_of_ne_nil h.nonempty) ?_
  unfold createPyTrace
  dsimp only
  refine (registrations_same hal true mode [] [] 0).append ?_
  rw [registerRanks_snd, hsess] at ha ⊢
  exact py_program_calls h hF hcount hD rfl rfl rfl _ hmem hnames hsized ha

theorem use_py_return (h : Verif.ProgramOk dom rs) (hm : mode = .write ∨ mode = .overwrite) {D : FileDesc} {d : Disk α}
    {cell : Int → String → Option (Values α)} (hd : FileHas dom rs mode D d cell) {u : PyFrameSession α} (hu : u.Ok dom rs)
    (hcount : Counted u.ranks) (hal : CallsAlike u.ranks)
    (ha : ∀ o ∈ (usePyFramesPar conv convI u.mode (u.ranks.map FileRank.colls) d u.mem u.steps).1, o.Agreed) :
    AllReturn fun i : Fin u.ranks.length => usePyTrace conv convI u.mode (u.ranks.map FileRank.colls) d u.mem u.steps i := by
  obtain ⟨r0, h0⟩ := List.exists_mem_of_ne_nil rs h.nonempty
  obtain ⟨hd1, hd2⟩ := hd.header r0 h0
  have hagain := fun r' hr' => regOf_again h hm h0 hu.ok hu.data hu.mode d.data.numrecs (r' := r') hr'
  dsimp only at hagain
  rw [← hd1, ← hd2] at hagain
  have hF : ∀ r ∈ u.ranks, RegOf u.mode r (regOf u.mode d.dims d.vars d.data.numrecs r) := fun r hr => (hagain r hr).2.1
  have hD' := fits_of_same h hd.fits hu.ok hu.data
  have hsess := joinSess_created (mode := u.mode) (F := regOf u.mode d.dims d.vars d.data.numrecs) hu.ok.nonempty
    (fun r hr => (hagain r hr).2.2.2.2)
  unfold usePyFramesPar at ha
  dsimp only at ha
  refine returns_of_same (List.length_pos_of_ne_nil hu.ok.nonempty) ?_
  unfold usePyTrace
  dsimp only
  refine (registrations_same hal true u.mode d.dims d.vars d.data.numrecs).append ?_
  rw [registerRanks_snd, hsess] at ha ⊢
  exact py_program_calls hu.ok hF hcount hD' rfl rfl rfl _ (memoryOf_holds hu.mem) hu.names (py_computes_holds hu.same) ha

theorem py_sessions_return (hc : conv.Faithful) (hcI : convI.Faithful) (h : Verif.ProgramOk dom rs)
    (hm : mode = .write ∨ mode = .overwrite) {D : FileDesc} (us : List (PyFrameSession α)) {d : Disk α}
    {cell : Int → String → Option (Values α)} (hd : FileHas dom rs mode D d cell) (hus : PySessionsOk late dom rs cell us)
    (hcount : ∀ u ∈ us, Counted u.ranks) (hal : ∀ u ∈ us, CallsAlike u.ranks) : PySessionsReturn conv convI d us := by
  induction us generalizing d cell with
  | nil => trivial
  | cons u us ih =>
    obtain ⟨h1, h2, h3⟩ := hus
    obtain ⟨h4, h5⟩ := h3 _ hd.nbFrames
    obtain ⟨k1, -, -, k4⟩ := use_py_has h hm hd h1 h2 h4
    have e := use_py_par hc hcI h hm hd h1 (hcount u (List.mem_cons_self ..)) h2 h4
    refine ⟨use_py_return h hm hd h1 (hcount u (List.mem_cons_self ..)) (hal u (List.mem_cons_self ..)) ?_, ?_⟩
    · rw [e]
      exact gets_agreed k1
    · rw [e]
      exact ih k4 h5 (fun u hu => hcount u (List.mem_cons_of_mem _ hu)) fun u hu => hal u (List.mem_cons_of_mem _ hu)

/-- **C107** Under the same conditions, the processes of all programs make the same collective calls in the same order from opening the
file to closing it, and all come to their end. -/
theorem C107_returns (hc : conv.Faithful) (hcI : convI.Faithful) (h : Verif.ProgramOk dom rs) (hn : Numbered rs)
    (hcount : Counted rs) (hal : CallsAlike rs) (hm : mode = .write ∨ mode = .overwrite) (garbage : String → List Int → α)
    (garbageInt : String → List Int → Int) {mem : Memory α} {cur : String → Values α} (hmem : ProgramHolds rs mem cur)
    {xs : List (PyFrameStep (Memory α))} {ys : List (PyFrameStep (String → Values α))} (hs : List.Forall₂ (SameStep (ProgramHolds rs)) xs ys)
    (hnames : ∀ x ∈ xs, x.Uses fun u => NoLocalNames rs (u.op (C := Memory α) 0))
    (hfit : FrameTable.Fits late (storedNames rs) ⟨⟨true, 0, cur, fun _ _ => none⟩, [], []⟩ ys) {us : List (PyFrameSession α)}
    (hus : PySessionsOk late dom rs (FrameTable.run late (storedNames rs) ⟨⟨true, 0, cur, fun _ _ => none⟩, [], []⟩ ys).2.table.cell us)
    (hcounts : ∀ u ∈ us, Counted u.ranks) (hals : ∀ u ∈ us, CallsAlike u.ranks) :
    (AllReturn fun i : Fin rs.length =>
      createPyTrace conv convI mode (rs.map FileRank.colls) garbage garbageInt mem xs i) ∧
    PySessionsReturn conv convI (createPyFramesPar conv convI mode (rs.map FileRank.colls) garbage garbageInt mem xs).2.1 us := by
  have e := py_create_par hc hcI h hn hcount hm garbage garbageInt hmem hs hnames hfit
  obtain ⟨k1, -, -, D, hD⟩ := create_py_has h hn hm garbage garbageInt hmem hs hnames hfit
  refine ⟨py_create_return h hn hcount hal hm garbage garbageInt (memoryOf_holds hmem) hnames (py_computes_holds hs) ?_, ?_⟩
  · rw [e]
    exact gets_agreed k1
  · rw [e]
    exact py_sessions_return hc hcI h hm us hD hus hcounts hals

/-! ### An example -/

/-- The two programs of the example for C106. -/
example :
    let r := createPyFrames .write (exRanks.map FileRank.colls) (fun _ _ => 77) (fun _ _ => 78) (exMem 5) (exPyProg (exMem 1000))
    let r' := createPyFramesPar exConv exConv .write (exRanks.map FileRank.colls) (fun _ _ => 77) (fun _ _ => 78) (exMem 5)
      (exPyProg (exMem 1000))
    (r' = pyInParallel r ∧
      runPySessionsPar exConv exConv r'.2.1 exPySessions = (runPySessions r.2.1 exPySessions).map pyInParallel) ∧
    (AllReturn fun i : Fin 2 => createPyTrace exConv exConv .write (exRanks.map FileRank.colls) (fun _ _ => 77) (fun _ _ => 78)
      (exMem 5) (exPyProg (exMem 1000)) i) ∧
    PySessionsReturn exConv exConv r'.2.1 exPySessions :=
  ⟨C107_same exConv_faithful exConv_faithful exRanks_ok exNumbered exRanks_counted (Or.inl rfl) _ _ (exRanks_hold 5)
    exPy_same exPy_names exPy_fits exPySessions_ok (by simp [exPySessions, exRanks_counted']),
  C107_returns exConv_faithful exConv_faithful exRanks_ok exNumbered exRanks_counted exRanks_alike (Or.inl rfl) _ _
    (exRanks_hold 5) exPy_same exPy_names exPy_fits exPySessions_ok (by simp [exPySessions, exRanks_counted'])
    (by simp [exPySessions, exRanks_alike'])⟩

/-- The same as the model computes it, for the outcomes. -/
example :
    let r' := createPyFramesPar exConv exConv .write (exRanks.map FileRank.colls) (fun _ _ => 77) (fun _ _ => 78) (exMem 5)
      (exPyProg (exMem 1000))
    r'.1.take 8 = [.ok (.frame 0), .ok .done, .ok .done, .ok (.frame 1), .ok .done, .ok .done, .ok (.frame 0), .ok (.frame 2)] ∧
      r'.1[16]? = some (.throw .fileIOError) ∧ r'.2.2.indep = false ∧ r'.2.2.sess.nbFrames = 3 := by
  decide +kernel

end Verif.Props
