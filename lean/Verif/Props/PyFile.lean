import Verif.Lemmas.PyFileStart
import Verif.Lemmas.FileTable
/-
C82: python programs with a distributed field collection and a file.
-/
set_option linter.unusedSectionVars false

namespace Verif.Props
open Verif Verif.Ccoord Verif.Layout Verif.Layout.FieldLayout Verif.RawMemory Verif.Numpy Verif.Collection
  Verif.Collection.Coll Verif.PyField Verif.PySession Verif.PyArrays Verif.NetCDF Verif.PyFile Verif.FileIO

variable {α U : Type} [Inhabited α] [DecidableEq U]
variable {srt : SortFn} {size : ElemType → Int} {dom : List Int} {names : List String} {cs : List (Coll α U)}
  {ps : List (Part α U)} {mode : OpenMode}

/-- What the user sees of a new file. -/
def newShared (ps : List (Part α U)) : Shared α U := ⟨true, 0, ps, fun _ _ => none⟩

/-- The collections show the arrays. -/
def AllShow (cs : List (Coll α U)) (ps : List (Part α U)) : Prop := List.Forall₂ (fun c p => Displays c p.dict) cs ps

theorem Nows.allShow {cs0 : List (Coll α U)} (h : Nows cs0 cs ps) : AllShow cs ps := by
  refine forall₂_of_get (by rw [h.len, h.lenP]) fun i c p hc hp => ?_
  obtain ⟨c0, c', -, hc', hn⟩ := h.get' hp
  rw [hc] at hc'
  cases hc'
  exact hn.shows

theorem createPy_has (hsrt : SortSpec srt) (hz : ∀ ty, 0 < size ty) (ht : Together dom names ps)
    (h : List.Forall₂ (OnPart dom) cs ps) (hm : mode = .write ∨ mode = .overwrite) (garbage : String → List Int → α)
    (garbageInt : String → List Int → Int) {ops : List (PyOp α U)}
    (hops : StepsOk (cs.map fun c => c.order) names (newShared ps) ops) :
    let r := createPy srt size mode cs garbage garbageInt ops
    let q := (newShared ps).run names ops
    (∀ os ∈ r.registered, ∀ o ∈ os, o = .ok ()) ∧ r.results = q.1 ∧ Nows cs r.colls q.2.parts ∧ r.len = q.2.nb ∧
      ∃ D, FileHas dom (cs.map rankOf) mode D r.disk q.2.cell := by
  intro r q
  obtain ⟨hS, hnum, hnow⟩ := start_of ht h
  have hF : ∀ x ∈ cs.map rankOf, RegOf mode x (regOf mode [] [] 0 x) := fun x hx => regOf_new hS.ok hm hx
  have hcl : (cs.map rankOf).map FileRank.colls = cs.map fun c => [ioColl c] := by rw [List.map_map]; rfl
  have hsess := joinSess_created (mode := mode) (F := regOf mode [] [] 0) hS.ok.nonempty
    (fun x hx => (regOf_writing hS.ok hm hx).2.nbFrames)
  rw [← registerRanks_snd, hcl] at hsess
  generalize hs0 : joinSess mode ((registerRanks mode [] [] 0 (cs.map fun c => [ioColl c])).map Prod.snd) = s0 at hsess
  have hnames : s0.names = names := by
    rw [Sess.names, hsess, ← hS.stored, ← storedNames_eq hS.ok hF, ← registerRanks_snd, hcl]
  let hd := headerOf ((registerRanks mode [] [] 0 (cs.map fun c => [ioColl c])).map Prod.snd)
  have hreg : ∀ os ∈ r.registered, ∀ o ∈ os, o = .ok () := by
    obtain ⟨g1, -⟩ := create_has hS.ok hnum hm garbage garbageInt (hnow.holds hS) .nil (by simp) trivial
    rw [hcl] at g1
    exact g1
  have hsim : Sim cs names (fun w t => w.sess.nbFrames = t.nb ∧
      ∃ D, FileHas dom (cs.map rankOf) mode D ⟨hd.1, hd.2, w.file⟩ t.cell)
      ⟨cs, s0, NcFile.created s0.vars s0.hidden garbage garbageInt⟩ (newShared ps) := by
    refine ⟨hnow, hnames, fun ops sops h1 h2 h3 => ?_⟩
    rw [← hS.stored] at h3
    obtain ⟨-, g2, g3, g4, g5⟩ := create_has hS.ok hnum hm garbage garbageInt (hnow.holds hS) h1 h2 h3
    rw [hcl] at g2 g3 g4 g5
    rw [hS.stored] at g2 g3 g4 g5
    rw [← hs0]
    exact ⟨g2, g3, g4, g5⟩
  obtain ⟨k1, k2⟩ := hsim.run hsrt hz hS ops hops
  rw [← hs0] at k1 k2
  exact ⟨hreg, k1, k2.nows, k2.cont.now.2.1, k2.cont.now.2.2⟩

/-- **C82** A python program on any number of processes, each with the part of the domain that its collection covers, creates
a file: all registrations succeed, and every statement, a call with the arrays of one process or a call with the file, in
any order, returns or throws what it does when the collections are dictionaries of arrays and the file is a table of arrays
of the whole domain; in the end the collections show those arrays, and the file has that many frames. -/
theorem C82_new_partial (hsrt : SortSpec srt) (hz : ∀ ty, 0 < size ty) (ht : Together dom names ps)
    (h : List.Forall₂ (OnPart dom) cs ps) (hm : mode = .write ∨ mode = .overwrite) (garbage : String → List Int → α)
    (garbageInt : String → List Int → Int) {ops : List (PyOp α U)}
    (hops : StepsOk (cs.map fun c => c.order) names (newShared ps) ops) :
    let r := createPy srt size mode cs garbage garbageInt ops
    let q := (newShared ps).run names ops
    (∀ os ∈ r.registered, ∀ o ∈ os, o = .ok ()) ∧ r.results = q.1 ∧ AllShow r.colls q.2.parts ∧ r.len = q.2.nb := by
  obtain ⟨h1, h2, h3, h4, -⟩ := createPy_has hsrt hz ht h hm garbage garbageInt hops
  exact ⟨h1, h2, h3.allShow, h4⟩

/-! ### Programs that open the file later -/

/-- A python program that opens an existing file: the mode, the collections of its processes, the arrays they show, and
what it does. -/
structure PyProgram (α U : Type) where
  mode : OpenMode
  colls : List (Coll α U)
  parts : List (Part α U)
  ops : List (PyOp α U)

/-- The arrays of two programs can be stored in the same file. -/
def SameArrays (ps ps' : List (Part α U)) : Prop :=
  ∀ p ∈ ps, ∀ p' ∈ ps', ∀ n a a', p.dict.arrs n = some a → p'.dict.arrs n = some a' → a.stored = a'.stored

/-- The program can use a file that a program with the arrays `ps` has created. -/
structure PyProgram.Ok (dom : List Int) (names : List String) (ps : List (Part α U)) (u : PyProgram α U) : Prop where
  mode : u.mode = .read ∨ u.mode = .append
  together : Together dom names u.parts
  shows : List.Forall₂ (OnPart dom) u.colls u.parts
  same : SameArrays ps u.parts

/-- What the program sees at the start. -/
def PyProgram.start (u : PyProgram α U) (cell : Int → String → Option (Values α)) (nb : Int) : Shared α U :=
  ⟨u.mode = .append, nb, u.parts, cell⟩

theorem usePy_has (hsrt : SortSpec srt) (hz : ∀ ty, 0 < size ty) (ht : Together dom names ps)
    (h : List.Forall₂ (OnPart dom) cs ps) (hm : mode = .write ∨ mode = .overwrite) {D : FileDesc} {d : Disk α}
    {cell : Int → String → Option (Values α)} (hd : FileHas dom (cs.map rankOf) mode D d cell) {u : PyProgram α U}
    (hu : u.Ok dom names ps)
    (hops : StepsOk (u.colls.map fun c => c.order) names (u.start cell d.data.numrecs) u.ops) :
    let r := usePy srt size u.mode u.colls d u.ops
    let q := (u.start cell d.data.numrecs).run names u.ops
    (∀ os ∈ r.registered, ∀ o ∈ os, o = .ok ()) ∧ r.results = q.1 ∧ AllShow r.colls q.2.parts ∧ r.len = q.2.nb ∧
      FileHas dom (cs.map rankOf) mode D r.disk q.2.cell := by
  intro r q
  obtain ⟨hS, hnum, hnow⟩ := start_of ht h
  obtain ⟨hS', hnum', hnow'⟩ := start_of hu.together hu.shows
  have hcl : (u.colls.map rankOf).map FileRank.colls = u.colls.map fun c => [ioColl c] := by rw [List.map_map]; rfl
  have hsame : SameData (cs.map rankOf) (u.colls.map rankOf) := by
    refine ⟨fun x hx x' hx' => ?_, fun l hl => ?_⟩
    · obtain ⟨c, hc, rfl⟩ := List.mem_map.1 hx
      obtain ⟨c', hc', rfl⟩ := List.mem_map.1 hx'
      obtain ⟨p, hp, ho⟩ := forall₂_mem_left h hc
      obtain ⟨p', hp', ho'⟩ := forall₂_mem_left hu.shows hc'
      show [(ioColl c).sig] = [(ioColl c').sig]
      rw [OnPart.sig_eq ht hu.together hu.same hp hp' ho ho']
    · rw [hS.noLocal] at hl; cases hl
  obtain ⟨r0, rest, hrs⟩ : ∃ r0 rest, cs.map rankOf = r0 :: rest := by
    cases hrs : cs.map rankOf with
    | nil => exact absurd hrs hS.ok.nonempty
    | cons a l => exact ⟨a, l, rfl⟩
  have h0 : r0 ∈ cs.map rankOf := by rw [hrs]; simp
  obtain ⟨hd1, hd2⟩ := hd.header r0 h0
  have hagain := fun r' hr' => regOf_again hS.ok hm h0 hS'.ok hsame hu.mode d.data.numrecs (r' := r') hr'
  dsimp only at hagain
  rw [← hd1, ← hd2] at hagain
  have hF : ∀ x ∈ u.colls.map rankOf, RegOf u.mode x (regOf u.mode d.dims d.vars d.data.numrecs x) :=
    fun x hx => (hagain x hx).2.1
  have hsess := joinSess_created (mode := u.mode) (F := regOf u.mode d.dims d.vars d.data.numrecs) hS'.ok.nonempty
    (fun x hx => (hagain x hx).2.2.2.2)
  rw [← registerRanks_snd, hcl] at hsess
  generalize hs0 : joinSess u.mode ((registerRanks u.mode d.dims d.vars d.data.numrecs
    (u.colls.map fun c => [ioColl c])).map Prod.snd) = s0 at hsess
  have hnames : s0.names = names := by
    rw [Sess.names, hsess, ← hS'.stored, ← storedNames_eq hS'.ok hF, ← registerRanks_snd, hcl]
  let hdr := headerOf ((registerRanks u.mode d.dims d.vars d.data.numrecs (u.colls.map fun c => [ioColl c])).map Prod.snd)
  have happ : u.mode = .append → ∀ x ∈ cs.map rankOf, ∀ e ∈ x.entries, ∀ l total, e.1 = some (l, total) →
      ∃ e' ∈ x.entries, e'.1 = some (l, total) ∧ HasCell cell e'.2.1 := by
    intro _ x hx e he l total hl
    obtain ⟨c, hc, rfl⟩ := List.mem_map.1 hx
    rw [entries_rankOf] at he
    obtain ⟨e, -, rfl⟩ := List.mem_map.1 he
    cases hl
  have key : ∀ (ops : List (FileOp (Memory α))) (sops : List (FileOp (String → Values α))),
      List.Forall₂ (SameOp (ProgramHolds (u.colls.map rankOf))) ops sops →
      (∀ op ∈ ops, NoLocalNames (u.colls.map rankOf) op) → (u.start cell d.data.numrecs).table.NoGaps names sops → _ :=
    fun ops sops h1 h2 h3 => use_has hS.ok hm hd
      (u := ⟨u.colls.map rankOf, u.mode, memory u.colls, whole u.parts, ops, sops⟩)
      ⟨hS'.ok, hsame, hu.mode, hnow'.holds hS', h1, h2, fun _ op _ => refused_rankOf u.colls op⟩ happ (by rw [hS.stored]; exact h3)
  have hreg : ∀ os ∈ r.registered, ∀ o ∈ os, o = .ok () := by
    obtain ⟨g1, -⟩ := key [] [] .nil (by simp) trivial
    dsimp only at g1
    rw [hcl] at g1
    exact g1
  have hsim : Sim u.colls names (fun w t => w.sess.nbFrames = t.nb ∧
      FileHas dom (cs.map rankOf) mode D ⟨hdr.1, hdr.2, w.file⟩ t.cell)
      ⟨u.colls, s0, d.data⟩ (u.start cell d.data.numrecs) := by
    refine ⟨hnow', hnames, fun ops sops h1 h2 h3 => ?_⟩
    obtain ⟨-, g2, g3, g4, g5⟩ := key ops sops h1 h2 h3
    dsimp only at g2 g3 g4 g5
    rw [hcl] at g2 g3 g4 g5
    rw [hS.stored] at g2 g3 g4 g5
    rw [← hs0]
    exact ⟨g2, g3, g4, g5⟩
  obtain ⟨k1, k2⟩ := hsim.run hsrt hz hS' u.ops hops
  rw [← hs0] at k1 k2
  exact ⟨hreg, k1, k2.nows.allShow, k2.cont.now.2.1, k2.cont.now.2.2⟩

/-- The programs use the file one after the other. -/
def runPrograms (srt : SortFn) (size : ElemType → Int) : Disk α → List (PyProgram α U) → List (PyRun α U)
  | _, [] => []
  | d, u :: us =>
      let r := usePy srt size u.mode u.colls d u.ops
      r :: runPrograms srt size r.disk us

/-- The programs can use the file one after the other, when it has the values `cell` before. -/
def ProgramsOk (dom : List Int) (names : List String) (ps : List (Part α U)) :
    (Int → String → Option (Values α)) → List (PyProgram α U) → Prop
  | _, [] => True
  | cell, u :: us => u.Ok dom names ps ∧ ∀ nb, NbFrames cell nb →
      StepsOk (u.colls.map fun c => c.order) names (u.start cell nb) u.ops ∧
        ProgramsOk dom names ps ((u.start cell nb).run names u.ops).2.cell us

/-- Each program finds the table that the programs before have left. -/
def ProgramsBehave (names : List String) :
    (Int → String → Option (Values α)) → List (PyProgram α U) → List (PyRun α U) → Prop
  | _, [], rs => rs = []
  | _, _ :: _, [] => False
  | cell, u :: us, r :: rs => ∃ nb, NbFrames cell nb ∧
      let q := (u.start cell nb).run names u.ops
      (∀ os ∈ r.registered, ∀ o ∈ os, o = .ok ()) ∧ r.results = q.1 ∧ AllShow r.colls q.2.parts ∧ r.len = q.2.nb ∧
        ProgramsBehave names q.2.cell us rs

theorem programs_behave (hsrt : SortSpec srt) (hz : ∀ ty, 0 < size ty) (ht : Together dom names ps)
    (h : List.Forall₂ (OnPart dom) cs ps) (hm : mode = .write ∨ mode = .overwrite) {D : FileDesc}
    (us : List (PyProgram α U)) {d : Disk α} {cell : Int → String → Option (Values α)}
    (hd : FileHas dom (cs.map rankOf) mode D d cell) (hus : ProgramsOk dom names ps cell us) :
    ProgramsBehave names cell us (runPrograms srt size d us) := by
  induction us generalizing d cell with
  | nil => rfl
  | cons u us ih =>
    obtain ⟨h1, h2⟩ := hus
    obtain ⟨h3, h4⟩ := h2 _ hd.nbFrames
    obtain ⟨k1, k2, k3, k4, k5⟩ := usePy_has hsrt hz ht h hm hd h1 h3
    exact ⟨_, hd.nbFrames, k1, k2, k3, k4, ih k5 h4⟩

/-- **C82** A python program creates a file, and any number of python programs open it one after the other, for reading or
for appending, each with any number of processes, another decomposition of the domain and other storage orders, as
long as the arrays have the same names, components and sub-points.  Each finds the table of arrays that the programs before
have left, and all its statements return or throw what they do with that table and with dictionaries of arrays. -/
theorem C82_programs_partial (hsrt : SortSpec srt) (hz : ∀ ty, 0 < size ty) (ht : Together dom names ps)
    (h : List.Forall₂ (OnPart dom) cs ps) (hm : mode = .write ∨ mode = .overwrite) (garbage : String → List Int → α)
    (garbageInt : String → List Int → Int) {ops : List (PyOp α U)}
    (hops : StepsOk (cs.map fun c => c.order) names (newShared ps) ops) {us : List (PyProgram α U)}
    (hus : ProgramsOk dom names ps ((newShared ps).run names ops).2.cell us) :
    ProgramsBehave names ((newShared ps).run names ops).2.cell us
      (runPrograms srt size (createPy srt size mode cs garbage garbageInt ops).disk us) := by
  obtain ⟨-, -, -, -, D, hD⟩ := createPy_has hsrt hz ht h hm garbage garbageInt hops
  exact programs_behave hsrt hz ht h hm us hD hus

/-! ### What is written is read -/

theorem read_one (hsrt : SortSpec srt) (hz : ∀ ty, 0 < size ty) (ht : Together dom names ps)
    (h : List.Forall₂ (OnPart dom) cs ps) (hm : mode = .write ∨ mode = .overwrite) {D : FileDesc} {d : Disk α}
    {cell : Int → String → Option (Values α)} (hd : FileHas dom (cs.map rankOf) mode D d cell) {fr : Int}
    {val : String → Values α} (hval : ∀ n ∈ names, cell fr n = some (val n)) {u : PyProgram α U} (hu : u.Ok dom names ps)
    {k : Nat} {p : Part α U} (hp : u.parts[k]? = some p) {n : String} {a : Arr α U} (ha : p.dict.arrs n = some a)
    {cc z : List Int} {s : Int} (hcc : cc.length = a.comps.length) (hbox : InBox (a.comps ++ a.nb :: p.dict.grid) (cc ++ s :: z))
    (hops : u.ops = [.file (.readAll fr), .py k (.getItem n .subPt (cc ++ s :: z))]) :
    (usePy srt size u.mode u.colls d u.ops).results =
      [.ok .nothing, .ok (.values [val n 0 cc s (List.zipWith (· + ·) z p.loc)])] := by
  have hn : n ∈ names := (hu.together.called p (List.mem_of_getElem? hp) n).2 (by rw [ha]; rfl)
  obtain ⟨hb0, hb1⟩ := hd.values.recs _ _ _ (hval n hn)
  have hmf : meantFrame d.data.numrecs fr = some fr := by rw [meantFrame, if_pos ⟨hb0, hb1⟩]
  obtain ⟨cur2, q1, q2, -⟩ := Table.read_filled (V := Values α) (frame := fr) names
    (u.start cell d.data.numrecs).table (fun _ h => h) hmf hval
  have hst : (u.start cell d.data.numrecs).step names (.file (.readAll fr)) =
      (.ok .nothing, ⟨u.mode = .append, d.data.numrecs, u.parts.map (Part.give names cur2), cell⟩) := by
    simp only [Shared.step, lift, Table.step, q1, if_true, isRead]
    rfl
  have hpk : (u.parts.map (Part.give names cur2))[k]? = some (p.give names cur2) := by
    rw [List.getElem?_map, hp]; rfl
  have har : (p.give names cur2).dict.arrs n = some { a with val := atPart (val n) a.comps.length p.loc } := by
    simp only [Part.give, hn, if_true, ha, Option.map_some, q2 n hn]
  have hstep : StepsOk (u.colls.map fun c => c.order) names (u.start cell d.data.numrecs) u.ops := by
    rw [hops]
    refine ⟨?_, ?_, trivial⟩
    · intro m hm' _
      change match meantFrame d.data.numrecs fr with
        | some fr => cell fr m ≠ none
        | none => HasCell cell m
      rw [hmf]
      simp [hval m hm']
    · rw [hst]
      have hlt : k < u.colls.length := by
        rw [hu.shows.length_eq]; exact (List.getElem?_eq_some_iff.1 hp).1
      exact ⟨_, hpk, _, by rw [List.getElem?_map, List.getElem?_eq_getElem hlt]; rfl, fun e => by cases e⟩
  obtain ⟨-, k2, -⟩ := usePy_has hsrt hz ht h hm hd hu hstep
  rw [k2, hops]
  simp only [Shared.run, hst]
  simp only [Shared.step, hpk, Dict.call, Dict.getItem, har, Arr.shape]
  rw [show (p.give names cur2).dict.grid = p.dict.grid from rfl, npIndex_self hbox]
  simp only [InBox.length_eq hbox, List.drop_length, npAll, List.map_cons, List.map_nil, List.append_nil, Arr.ofView, atPart]
  rw [← hcc, List.take_left, show List.drop (cc.length + 1) (cc ++ s :: z) = z by simp,
    show (cc ++ s :: z).getD cc.length 0 = s by simp [List.getD_eq_getElem?_getD]]

theorem shared_run_append (s : Shared α U) (ops ops' : List (PyOp α U)) :
    (s.run names (ops ++ ops')).2 = ((s.run names ops).2.run names ops').2 := by
  induction ops generalizing s with
  | nil => rfl
  | cons op ops ih => exact ih _

theorem stepsOk_append {orders : List StorageOrder} {s : Shared α U} {ops ops' : List (PyOp α U)}
    (h : StepsOk orders names s ops) (h' : StepsOk orders names (s.run names ops).2 ops') :
    StepsOk orders names s (ops ++ ops') := by
  induction ops generalizing s with
  | nil => exact h'
  | cons op ops ih => exact ⟨h.1, ih h.2 h'⟩

theorem shared_run_keeps (ops : List (PyOp α U)) (s : Shared α U) (h : 0 ≤ s.nb) :
    (s.run names ops).2.writable = s.writable ∧ 0 ≤ (s.run names ops).2.nb := by
  induction ops generalizing s with
  | nil => exact ⟨rfl, h⟩
  | cons op ops ih =>
    have key : (s.step names op).2.writable = s.writable ∧ 0 ≤ (s.step names op).2.nb := by
      cases op with
      | py r op =>
        simp only [Shared.step]
        split <;> exact ⟨rfl, h⟩
      | file op =>
        refine ⟨rfl, ?_⟩
        show 0 ≤ (s.table.step names (lift op)).2.nb
        have hw : ∀ fr ns (t : Table (Values α)), (t.write names fr ns).2.nb = t.nb := by
          intro fr ns
          induction ns with
          | nil => intro t; rfl
          | cons n ns ih =>
            intro t
            rw [Table.write]
            split
            · split
              · exact ih _
              · rfl
            · rfl
        have hr : ∀ fr ns (t : Table (Values α)), (t.read names fr ns).2.nb = t.nb := by
          intro fr ns
          induction ns with
          | nil => intro t; rfl
          | cons n ns ih =>
            intro t
            rw [Table.read]
            split
            · split
              · split
                · exact ih _
                · rfl
              · rfl
            · rfl
        cases op with
        | appendFrame => show 0 ≤ s.nb + 1; omega
        | write fr ns => simp only [lift, Table.step, hw]; exact h
        | writeAll fr => simp only [lift, Table.step, hw]; exact h
        | read fr ns => simp only [lift, Table.step, hr]; exact h
        | readAll fr => simp only [lift, Table.step, hr]; exact h
        | compute c => exact c.elim
    obtain ⟨k1, k2⟩ := ih _ key.2
    exact ⟨k1.trans key.1, k2⟩

/-- **C82** What one program writes, another one reads, through the arrays of python: after any statements the writer appends
a frame and writes it; a program with any number of processes, another decomposition and other storage orders reads
that frame, and `f.s[…]` on its process `k` is the element that the array of the writer has for the same component,
sub-point and pixel of the domain, on the process of the writer to which that pixel belongs. -/
theorem C82_round_trip_partial (hsrt : SortSpec srt) (hz : ∀ ty, 0 < size ty) (ht : Together dom names ps)
    (h : List.Forall₂ (OnPart dom) cs ps) (hm : mode = .write ∨ mode = .overwrite) (garbage : String → List Int → α)
    (garbageInt : String → List Int → Int) {ops : List (PyOp α U)}
    (hops : StepsOk (cs.map fun c => c.order) names (newShared ps) ops) {u : PyProgram α U} (hu : u.Ok dom names ps)
    {k : Nat} {p : Part α U} (hp : u.parts[k]? = some p) {n : String} {a : Arr α U} (ha : p.dict.arrs n = some a)
    {cc z : List Int} {s : Int} (hcc : cc.length = a.comps.length) (hbox : InBox (a.comps ++ a.nb :: p.dict.grid) (cc ++ s :: z))
    (huo : u.ops = [.file (.readAll ((newShared ps).run names ops).2.nb), .py k (.getItem n .subPt (cc ++ s :: z))]) :
    let w := createPy srt size mode cs garbage garbageInt (ops ++ [.file .appendFrame, .file (.writeAll (-1))])
    let g := List.zipWith (· + ·) z p.loc
    ∃ q ∈ ((newShared ps).run names ops).2.parts, q.Here g ∧
      (usePy srt size u.mode u.colls w.disk u.ops).results = [.ok .nothing, .ok (.values [q.at n cc s g])] := by
  intro w g
  obtain ⟨hS, -, hnow⟩ := start_of ht h
  obtain ⟨q1, q2⟩ := shared_run_keeps (names := names) ops (newShared ps) (by simp [newShared])
  -- the state of the writer before the last two statements
  generalize hs : ((newShared ps).run names ops).2 = s0 at *
  have hmf : meantFrame (s0.nb + 1) (-1) = some s0.nb := by
    rw [meantFrame, if_neg (by omega), if_pos (by omega)]; congr 1; omega
  obtain ⟨cell, hw1, hw2, -⟩ := Table.write_all (known := names) (frame := -1) (fr := s0.nb) names
    (⟨s0.writable, s0.nb + 1, whole s0.parts, s0.cell⟩ : Table (Values α)) (fun _ h => h) q1 hmf
  have hlast : (s0.run names [.file .appendFrame, .file (.writeAll (-1))]).2 = ⟨s0.writable, s0.nb + 1, s0.parts, cell⟩ := by
    simp only [Shared.run, Shared.step, lift, Table.step, Shared.table, isRead, Bool.false_eq_true, if_false]
    rw [hw1]
  have hok : StepsOk (cs.map fun c => c.order) names (newShared ps) (ops ++ [.file .appendFrame, .file (.writeAll (-1))]) :=
    stepsOk_append hops ⟨trivial, trivial, trivial⟩
  obtain ⟨-, -, -, -, D, hD⟩ := createPy_has hsrt hz ht h hm garbage garbageInt hok
  obtain ⟨-, -, hshow, -, -⟩ := createPy_has hsrt hz ht h hm garbage garbageInt hops
  rw [shared_run_append, hs, hlast] at hD
  have hres := read_one hsrt hz ht h hm hD (val := whole s0.parts) (fr := s0.nb) hw2 hu hp ha hcc hbox huo
  -- the pixel belongs to a process of the writer
  rw [hs] at hshow
  have hdom : InBox dom g := by
    obtain ⟨l1, l2⟩ := (hu.together.inside p (List.mem_of_getElem? hp)).lengths
    have hz' : InBox p.dict.grid z := by
      obtain ⟨c1, z1, e, hc1, hz1⟩ := inBox_append.1 hbox
      have hl := InBox.length_eq hc1
      obtain ⟨rfl, rfl⟩ := List.append_inj e (by rw [hcc, hl])
      exact hz1.2.2
    have hzl := InBox.length_eq hz'
    refine inBox_of_within (hu.together.inside p (List.mem_of_getElem? hp)) ?_
    have hrel := relCoord_add (loc := p.loc) (c := z) (by omega)
    have hg : g = List.zipWith (· + ·) p.loc z := by
      show List.zipWith _ z p.loc = _
      rw [List.zipWith_comm]
      simp only [Int.add_comm]
    rw [inBoxAt_iff_rel (by omega), hg, hrel]
    exact ⟨by simp; omega, hz'⟩
  obtain ⟨x, hx, hgx⟩ := hS.ok.cover g hdom
  obtain ⟨c0, hc0, rfl⟩ := List.mem_map.1 hx
  obtain ⟨i, hi⟩ := List.mem_iff_getElem?.1 hc0
  obtain ⟨c, q, -, hq, hn⟩ := hshow.get hi
  have hqg := (hn.here (hS.isGlobal c0 hc0) g).1 hgx
  refine ⟨q, List.mem_of_getElem? hq, hqg, ?_⟩
  rw [hres, whole_at hS hshow hq hqg]

/-! ### Collections made in python -/

/-- What is asked of a process: numbers of sub-points that are positive, one of the two storage orders, a part with positive
extents in one to three dimensions, and calls as in C80. -/
structure ProcOk (dom : List Int) (p : PyProc α U) : Prop where
  sorted : p.subPts.Sorted
  positive : ∀ tag n, p.subPts.find tag = some n → 1 ≤ n
  pixel : p.subPts.find "pixel" = none ∨ p.subPts.find "pixel" = some 1
  order : p.order = .colMajor ∨ p.order = .rowMajor
  pos : Pos (grid dom p)
  dims : (grid dom p).length = 1 ∨ (grid dom p).length = 2 ∨ (grid dom p).length = 3
  loc : p.loc = [] ∨ p.loc.length = (grid dom p).length
  setup : ProgramOk p.order (Dict.start (grid dom p) p.subPts) p.setup

/-- **C82** The collection that a process makes and fills shows the arrays that the same calls make in a dictionary, at the
place in the domain that was given. -/
theorem C82_make (hsrt : SortSpec srt) (hz : ∀ ty, 0 < size ty) (hdom : Pos dom) {p : PyProc α U} (h : ProcOk dom p) :
    ∃ c, p.make srt size dom = .ok (((Dict.start (grid dom p) p.subPts).run p.setup).1, c) ∧
      OnPart dom c (partOf dom p) ∧ c.order = p.order := by
  have hsub : subdomainOr dom p.sub = grid dom p := by
    unfold subdomainOr grid
    simp only [List.length_eq_zero_iff]
  have hloc : DynamicPixels.fillLoc (grid dom p) p.loc = first dom p := by
    unfold DynamicPixels.fillLoc first
    simp only [List.length_eq_zero_iff, List.map_const']
  obtain ⟨c, h1, h2, h3⟩ := C80_start (α := α) (U := U) hsrt (dom := dom) (sub := p.sub) (loc := p.loc) h.sorted h.positive
    h.pixel h.order hdom (by rw [hsub]; exact h.pos) (by rw [hsub]; exact h.dims)
    (by rw [hsub]; exact h.loc.imp (by rintro e; rw [e]; rfl) id)
  rw [hsub] at h2
  obtain ⟨f1, f2, f3, f4⟩ := newGlobal_frame h1
  rw [hsub, hloc] at f4
  have ho : OnPart dom c ⟨first dom p, Dict.start (grid dom p) p.subPts⟩ := ⟨h2, f1, f2, f4, f3⟩
  obtain ⟨k1, k2, k3⟩ := ho.run hsrt hz p.setup (by rw [h3]; exact h.setup)
  refine ⟨_, ?_, k3, k2.trans h3⟩
  rw [PyProc.make, h1, ← k1]

theorem make_all (hsrt : SortSpec srt) (hz : ∀ ty, 0 < size ty) (hdom : Pos dom) {prs : List (PyProc α U)}
    (h : ∀ p ∈ prs, ProcOk dom p) : ∃ cs : List (Coll α U),
      List.Forall₂ (fun p c => PyProc.make srt size dom p =
        .ok (((Dict.start (grid dom p) p.subPts).run p.setup).1, c)) prs cs ∧
      List.Forall₂ (OnPart dom) cs (prs.map (partOf dom)) ∧ (cs.map fun c => c.order) = prs.map fun p => p.order := by
  induction prs with
  | nil => exact ⟨[], .nil, .nil, rfl⟩
  | cons p prs ih =>
    obtain ⟨cs, h1, h2, h3⟩ := ih fun q hq => h q (by simp [hq])
    obtain ⟨c, k1, k2, k3⟩ := C82_make hsrt hz hdom (h p (by simp))
    exact ⟨c :: cs, .cons k1 h1, .cons k2 h2, by simp [h3, k3]⟩

/-- **C82** A whole python program: the processes make their collections, fill them, create a file and work with the arrays
and the file in any order; everything they see is what dictionaries of arrays and a table of arrays of the whole domain
give.  All hypotheses are about those. -/
theorem C82_session_partial (hsrt : SortSpec srt) (hz : ∀ ty, 0 < size ty) {prs : List (PyProc α U)}
    (hpr : ∀ p ∈ prs, ProcOk dom p) (ht : Together dom names (prs.map (partOf dom)))
    (hm : mode = .write ∨ mode = .overwrite) (garbage : String → List Int → α)
    (garbageInt : String → List Int → Int) {ops : List (PyOp α U)}
    (hops : StepsOk (prs.map fun p => p.order) names (newShared (prs.map (partOf dom))) ops) :
    ∃ cs : List (Coll α U), List.Forall₂ (fun p c => PyProc.make srt size dom p =
        .ok (((Dict.start (grid dom p) p.subPts).run p.setup).1, c)) prs cs ∧
      let r := createPy srt size mode cs garbage garbageInt ops
      let q := (newShared (prs.map (partOf dom))).run names ops
      (∀ os ∈ r.registered, ∀ o ∈ os, o = .ok ()) ∧ r.results = q.1 ∧ AllShow r.colls q.2.parts ∧ r.len = q.2.nb := by
  obtain ⟨cs, h1, h2, h3⟩ := make_all hsrt hz ht.pos hpr
  exact ⟨cs, h1, C82_new_partial hsrt hz ht h2 hm garbage garbageInt (by rw [h3]; exact hops)⟩

end Verif.Props
