import Verif.Lemmas.PyFrames
/-
**C106** Python programs with frame objects and iterators.
-/
namespace Verif.Props
open Verif Verif.Ccoord Verif.Layout Verif.Layout.FieldLayout Verif.RawMemory Verif.FileIO Verif.NetCDF

variable {α : Type} {dom : List Int} {rs rs' : List FileRank} {mode : OpenMode} {late : Bool}

/-! ### Iterators -/

/-- A state in which the file has `nb` frames, for examples. -/
def exPyState (nb : Int) : PyFrames Int :=
  ⟨⟨⟨.append, [], fun _ => none, nb, fun _ => [], [], []⟩, ⟨fun _ => none, fun _ => none, nb⟩, fun _ => []⟩, [], []⟩

/-- **C106** `it = iter(file)` for a file with `n` frames, in any state.  Whatever the program does afterwards with the file, with other
iterators and with frame objects, and whichever exceptions there are: the `m`-th call `next(it)` gives frame number `m` if `m < n` and
`StopIteration` otherwise. -/
theorem C106_iterator (s : PyFrames α) (xs : List (PyFrameStep (Memory α))) (h : 0 ≤ s.world.sess.nbFrames) (m : Nat)
    (o : Res (PyFrameOut Int)) (ho : (nextsOf s.iters.length xs ((s.step .iter).2.run xs).1)[m]? = some o) :
    o = if (m : Int) < s.world.sess.nbFrames then .ok (.frame m) else .ok .stop := by
  have k := nexts_left s.iters.length xs (s.step .iter).2 _ _ (by simp [PyFrames.step])
    (left_iter (nb := s.world.sess.nbFrames) h) m o ho
  rw [k]
  split_ifs with hm
  · rw [List.getElem?_range (by omega)]
  · rw [List.getElem?_eq_none (by rw [List.length_range]; omega)]

/-- **C106** The same for `it = reversed(file)`: the frames from the last one to the first one. -/
theorem C106_reversed (s : PyFrames α) (xs : List (PyFrameStep (Memory α))) (h : 0 ≤ s.world.sess.nbFrames) (m : Nat)
    (o : Res (PyFrameOut Int)) (ho : (nextsOf s.iters.length xs ((s.step .reversed).2.run xs).1)[m]? = some o) :
    o = if (m : Int) < s.world.sess.nbFrames then .ok (.frame (s.world.sess.nbFrames - 1 - m)) else .ok .stop := by
  have k := nexts_left s.iters.length xs (s.step .reversed).2 _ _ (by simp [PyFrames.step])
    (left_reversed (nb := s.world.sess.nbFrames) h) m o ho
  rw [k]
  split_ifs with hm
  · rw [List.getElem?_reverse (by rw [List.length_range]; omega), List.length_range, List.getElem?_range (by omega)]
    show Res.ok (PyFrameOut.frame _) = _
    congr 2
    omega
  · rw [List.getElem?_eq_none (by rw [List.length_reverse, List.length_range]; omega)]

/-- Every step gives something. -/
theorem py_run_length (xs : List (PyFrameStep (Memory α))) : ∀ s : PyFrames α, (s.run xs).1.length = xs.length := by
  induction xs with
  | nil => exact fun _ => rfl
  | cons x xs ih => exact fun s => congrArg (· + 1) (ih _)

theorem nextsOf_length {C O : Type} (k : Nat) (xs : List (PyFrameStep C)) : ∀ os : List O, os.length = xs.length →
    (nextsOf k xs os).length = (xs.filter (PyFrameStep.isNext k)).length := by
  induction xs with
  | nil => intro os _; simp [nextsOf]
  | cons x xs ih =>
    intro os h
    cases os with
    | nil => cases h
    | cons o os =>
      have := ih os (Nat.succ.inj h)
      cases x with
      | next j =>
        rw [nextsOf, List.filter_cons]
        by_cases hj : j = k
        · rw [if_pos hj, if_pos (by simpa [PyFrameStep.isNext] using hj), List.length_cons, List.length_cons, this]
        · rw [if_neg hj, if_neg (by simpa [PyFrameStep.isNext] using hj), this]
      | _ => exact this

/-- **C106** A loop that takes everything that an iterator gives, with anything in between, is given each frame once: after `n + 1`
calls of `next` it has had the frames `0, ..., n - 1` in this order and then `StopIteration`. -/
theorem C106_all (s : PyFrames α) (xs : List (PyFrameStep (Memory α))) (n : Nat) (h : s.world.sess.nbFrames = n)
    (hx : (xs.filter (PyFrameStep.isNext s.iters.length)).length = n + 1) :
    nextsOf s.iters.length xs ((s.step .iter).2.run xs).1 =
      (List.range n).map (fun m => .ok (.frame (m : Int))) ++ [.ok .stop] := by
  have hlen := nextsOf_length s.iters.length xs _ (py_run_length xs (s.step .iter).2)
  rw [hx] at hlen
  apply List.ext_getElem
  · rw [hlen]; simp
  · intro m h1 h2
    rw [C106_iterator s xs (by omega) m _ (List.getElem?_eq_getElem h1), h]
    by_cases hm : m < n
    · rw [if_pos (by exact_mod_cast hm), List.getElem_append_left (by simpa using hm), List.getElem_map, List.getElem_range]
    · rw [if_neg (by exact_mod_cast hm), List.getElem_append_right (by simpa using hm), List.getElem_singleton]

/-- Two iterators over a file with two frames, and a frame that is appended in between. -/
def exPyNexts : List (PyFrameStep (Memory Int)) :=
  [.next 0, .append, .reversed, .next 1, .getitem 9, .next 0, .next 1, .next 0, .next 1, .next 0, .next 1]

example : ((exPyState 2).step .iter).2.iters.length = 1 ∧
    nextsOf 0 exPyNexts ((exPyState 2 |>.step .iter).2.run exPyNexts).1 = [.ok (.frame 0), .ok (.frame 1), .ok .stop, .ok .stop] ∧
    nextsOf 1 exPyNexts ((exPyState 2 |>.step .iter).2.run exPyNexts).1 =
      [.ok (.frame 2), .ok (.frame 1), .ok (.frame 0), .ok .stop] := by
  decide +kernel

example : nextsOf 0 (exPyNexts.take 8) ((exPyState 2 |>.step .iter).2.run (exPyNexts.take 8)).1 =
    [.ok (.frame 0), .ok (.frame 1), .ok .stop] :=
  C106_all (exPyState 2) (exPyNexts.take 8) 2 rfl (by decide)

/-! ### The programs -/

theorem sameStep_congr {C D : Type} {R R' : C → D → Prop} (hR : ∀ c d, R c d → R' c d) {x : PyFrameStep C} {y : PyFrameStep D}
    (h : SameStep R x y) : SameStep R' x y := by
  cases h with
  | len => exact .len
  | getitem i => exact .getitem i
  | append => exact .append
  | use h u => exact .use h u
  | compute hc => exact .compute (hR _ _ hc)
  | iter => exact .iter
  | reversed => exact .reversed
  | next k => exact .next k

theorem py_uses_mono {C : Type} {P Q : FrameUse → Prop} (hPQ : ∀ u, P u → Q u) {x : PyFrameStep C} (h : x.Uses P) : x.Uses Q := by
  cases x with
  | use k u => exact hPQ u h
  | _ => trivial

theorem create_py_has (h : ProgramOk dom rs) (hn : Numbered rs) (hm : mode = .write ∨ mode = .overwrite)
    (garbage : String → List Int → α) (garbageInt : String → List Int → Int) {mem : Memory α} {cur : String → Values α}
    (hmem : ProgramHolds rs mem cur) {xs : List (PyFrameStep (Memory α))} {ys : List (PyFrameStep (String → Values α))}
    (hs : List.Forall₂ (SameStep (ProgramHolds rs)) xs ys)
    (hnames : ∀ x ∈ xs, x.Uses fun u => NoLocalNames rs (u.op (C := Memory α) 0))
    (hfit : FrameTable.Fits late (storedNames rs) ⟨⟨true, 0, cur, fun _ _ => none⟩, [], []⟩ ys) :
    let r := createPyFrames mode (rs.map FileRank.colls) garbage garbageInt mem xs
    let t := FrameTable.run late (storedNames rs) ⟨⟨true, 0, cur, fun _ _ => none⟩, [], []⟩ ys
    List.Forall₂ Gives r.1 t.1 ∧ ProgramHolds rs r.2.2.mem t.2.table.cur ∧ r.2.2.sess.nbFrames = t.2.table.nb ∧
      ∃ D, FileHas dom rs mode D r.2.1 t.2.table.cell := by
  intro r t
  obtain ⟨D, hD, hM⟩ := exists_fits h hn
  have hF : ∀ r ∈ rs, RegOf mode r (regOf mode [] [] 0 r) := fun r hr => regOf_new h hm hr
  have hreg := registered_of h hD hF
  have hcon := created_contains hreg garbage garbageInt
  have hsess := joinSess_created (mode := mode) (F := regOf mode [] [] 0) h.nonempty
    (fun r hr => (regOf_writing h hm hr).2.nbFrames)
  have hr : r = createPyFrames mode (rs.map FileRank.colls) garbage garbageInt mem xs := rfl
  unfold createPyFrames at hr
  dsimp only at hr
  rw [registerRanks_snd, hsess] at hr
  have main := py_agree_run hreg (hreg.writeLaw hm) (hs.imp fun _ _ => sameStep_congr (fun m c => (programHolds_iff h hF m c).1))
    (fun x hx => py_uses_mono (fun u hu => noHidden_of h hF _ hu) (hnames x hx)) (fun e => by rcases hm with rfl | rfl <;> cases e)
    (s := ⟨⟨Sess.created mode (joinVars (rs.map (regOf mode [] [] 0))) (joinHidden (rs.map (regOf mode [] [] 0)))
      (joinMarks (rs.map (regOf mode [] [] 0))), NcFile.created _ _ garbage garbageInt, mem⟩, [], []⟩)
    (t := ⟨⟨true, 0, cur, fun _ _ => none⟩, [], []⟩) (by rw [storedNames_eq h hF]; exact hfit)
    ⟨⟨⟨rfl, rfl, rfl, by rcases hm with rfl | rfl <;> simp, rfl, le_refl _, le_refl _, by
      intro x hx l hl
      obtain ⟨fv, e1, e2, -⟩ := hcon.entries x hx l hl
      refine ⟨?_, fv, e1, e2, by simp [Sess.created], ?_⟩
      · obtain ⟨r, hr, y, hy⟩ := var_local h hF hx hl
        exact marks_entries h hF hm hr hy fun r hr ids total off hl => hM r hr l ids total off hl
      · rintro ⟨fr, v, hcv⟩
        exact absurd hcv (by simp), hcon.agrees⟩, (programHolds_iff h hF mem cur).1 hmem⟩, rfl, .nil⟩
  rw [storedNames_eq h hF] at main
  obtain ⟨m1, m2⟩ := main
  obtain ⟨r0, rest, hrs⟩ : ∃ r0 rest, rs = r0 :: rest := by
    cases hrs : rs with
    | nil => exact absurd hrs h.nonempty
    | cons a l => exact ⟨a, l, rfl⟩
  have h0 : r0 ∈ rs := by rw [hrs]; simp
  refine ⟨?_, ?_, ?_, D, hD, ?_, ?_⟩
  · rw [hr]; exact m1
  · rw [hr]; exact (programHolds_iff h hF _ _).2 m2.agree.holds
  · rw [hr]; exact m2.agree.inv.frames
  · intro r' hr'
    obtain ⟨e1, e2, -⟩ := header_eq h hm h0 hr'
    rw [hr, headerOf_map hrs]
    exact ⟨e1, e2⟩
  · rw [hr]
    refine ⟨m2.agree.inv.agrees.each, m2.agree.inv.agrees.recs, m2.agree.inv.agrees.last, ?_⟩
    intro x hx l hl
    obtain ⟨-, fv, e1, e2, e3, e4⟩ := m2.agree.inv.entries x hx l hl
    exact ⟨fv, e1, e2, fun hh => e3 (e4 hh)⟩

theorem use_py_has (h : ProgramOk dom rs) (hm : mode = .write ∨ mode = .overwrite) {D : FileDesc} {d : Disk α}
    {cell : Int → String → Option (Values α)} (hd : FileHas dom rs mode D d cell) {u : PyFrameSession α} (hu : u.Ok dom rs)
    (happ : u.mode = .append → ∀ r ∈ rs, ∀ e ∈ r.entries, ∀ l total, e.1 = some (l, total) →
        ∃ e' ∈ r.entries, e'.1 = some (l, total) ∧ HasCell cell e'.2.1)
    (hfit : (u.table cell d.data.numrecs).Fits late (storedNames rs) u.ssteps) :
    let p := usePyFrames u.mode (u.ranks.map FileRank.colls) d u.mem u.steps
    let t := (u.table cell d.data.numrecs).run late (storedNames rs) u.ssteps
    List.Forall₂ Gives p.1 t.1 ∧ ProgramHolds u.ranks p.2.2.mem t.2.table.cur ∧ p.2.2.sess.nbFrames = t.2.table.nb ∧
      FileHas dom rs mode D p.2.1 t.2.table.cell := by
  intro p t
  obtain ⟨r0, rest, hrs⟩ : ∃ r0 rest, rs = r0 :: rest := by
    cases hrs : rs with
    | nil => exact absurd hrs h.nonempty
    | cons a l => exact ⟨a, l, rfl⟩
  have h0 : r0 ∈ rs := by rw [hrs]; simp
  obtain ⟨hd1, hd2⟩ := hd.header r0 h0
  have hF0 : ∀ r ∈ rs, RegOf mode r (regOf mode [] [] 0 r) := fun r hr => regOf_new h hm hr
  have hagain := fun r' hr' => regOf_again h hm h0 hu.ok hu.data hu.mode d.data.numrecs (r' := r') hr'
  dsimp only at hagain
  rw [← hd1, ← hd2] at hagain
  have hF : ∀ r ∈ u.ranks, RegOf u.mode r (regOf u.mode d.dims d.vars d.data.numrecs r) := fun r hr => (hagain r hr).2.1
  have hD := fits_of_same h hd.fits hu.ok hu.data
  have hreg0 := registered_of h hd.fits hF0
  have hreg := registered_of hu.ok hD hF
  have hsig := signature_eq h hF0 hu.ok hF hu.data
  have hcont := C62_any_program hreg0 hreg hsig hd.values
  have hnm : storedNames rs = storedNames u.ranks := by
    rw [← storedNames_eq h hF0, ← storedNames_eq hu.ok hF]
    have := congrArg (List.map Prod.fst) hsig
    rwa [List.map_map, List.map_map] at this
  have hsess := joinSess_created (mode := u.mode) (F := regOf u.mode d.dims d.vars d.data.numrecs) hu.ok.nonempty
    (fun r hr => (hagain r hr).2.2.2.2)
  have hmarks : ∀ x ∈ joinVars (u.ranks.map (regOf u.mode d.dims d.vars d.data.numrecs)), ∀ l, x.localName = some l →
      (joinMarks (u.ranks.map (regOf u.mode d.dims d.vars d.data.numrecs)) l).map List.length =
        ((progOf u.ranks).hid l).map HiddenPart.size := by
    intro x hx l hl
    obtain ⟨r, hr, y, hy⟩ := var_local hu.ok hF hx hl
    exact marks_lengths hu.ok hF hu.mode hr hy
  obtain ⟨r1, rest1, hrs1⟩ : ∃ r0 rest, u.ranks = r0 :: rest := by
    cases hrs : u.ranks with
    | nil => exact absurd hrs hu.ok.nonempty
    | cons a l => exact ⟨a, l, rfl⟩
  have h1 : r1 ∈ u.ranks := by rw [hrs1]; simp
  have hnn : 0 ≤ d.data.numrecs := by
    rcases hcont.last with h | ⟨n, val, h⟩
    · omega
    · have := hcont.recs _ _ _ h; omega
  have hmem := (programHolds_iff hu.ok hF _ _).1 hu.mem
  have hsame := hu.same.imp fun _ _ => sameStep_congr (fun m c => (programHolds_iff hu.ok hF m c).1)
  have hhid := fun x hx => py_uses_mono (fun f hf => noHidden_of hu.ok hF (joinVars (u.ranks.map (regOf u.mode d.dims d.vars d.data.numrecs))) hf)
    (hu.names x hx)
  have ht : t = (u.table cell d.data.numrecs).run late (storedNames rs) u.ssteps := rfl
  rw [hnm, ← storedNames_eq hu.ok hF] at hfit ht
  have hp : p = usePyFrames u.mode (u.ranks.map FileRank.colls) d u.mem u.steps := rfl
  unfold usePyFrames at hp
  dsimp only at hp
  rw [registerRanks_snd, hsess] at hp
  obtain ⟨w0, hw0⟩ : ∃ w0 : World α, w0 = ⟨Sess.opened u.mode (joinVars (u.ranks.map (regOf u.mode d.dims d.vars d.data.numrecs)))
    (joinHidden (u.ranks.map (regOf u.mode d.dims d.vars d.data.numrecs)))
    (joinMarks (u.ranks.map (regOf u.mode d.dims d.vars d.data.numrecs))) d.data, d.data, u.mem⟩ := ⟨_, rfl⟩
  have main : List.Forall₂ Gives (PyFrames.run ⟨w0, [], []⟩ u.steps).1 t.1 ∧
      (∀ x ∈ joinVars (u.ranks.map (regOf u.mode d.dims d.vars d.data.numrecs)),
        VarHolds (progOf u.ranks) x ((PyFrames.run ⟨w0, [], []⟩ u.steps).2.world.mem x.name) (t.2.table.cur x.name)) ∧
      (PyFrames.run ⟨w0, [], []⟩ u.steps).2.world.sess.nbFrames = t.2.table.nb ∧
      Contains D (progOf u.ranks) (joinVars (u.ranks.map (regOf u.mode d.dims d.vars d.data.numrecs)))
        (PyFrames.run ⟨w0, [], []⟩ u.steps).2.world.file t.2.table.cell := by
    rw [ht, hw0]
    rcases hu.mode with hr | ha
    · have key := py_agree_run hreg (hreg.openLaw (mode := u.mode) (all := false) (by rw [hr]; simp)) hsame hhid
        (fun e x hx => py_uses_mono (fun f hf => refused_of hu.ok hF hf) (hu.refused hr x hx)) (s := ⟨w0, [], []⟩)
        (t := u.table cell d.data.numrecs) hfit
        (by
          rw [hw0]
          refine ⟨⟨⟨rfl, rfl, rfl, by rw [PyFrameSession.table, hr]; simp, rfl, hnn, le_refl _, ?_, hcont.agrees⟩, hmem⟩, rfl, .nil⟩
          intro x hx l hl
          obtain ⟨fv, e1, e2, e3⟩ := hcont.entries x hx l hl
          exact ⟨hmarks x hx l hl, by simp [Sess.opened], fv, e1, e2, fun hh => e3 (hh.resolve_left (by simp))⟩)
      rw [hw0] at key
      obtain ⟨k1, k2⟩ := key
      refine ⟨k1, k2.agree.holds, k2.agree.inv.frames, k2.agree.inv.agrees.each, k2.agree.inv.agrees.recs, k2.agree.inv.agrees.last, ?_⟩
      intro x hx l hl
      obtain ⟨-, -, fv, e1, e2, e3⟩ := k2.agree.inv.entries x hx l hl
      exact ⟨fv, e1, e2, fun hh => e3 (Or.inr hh)⟩
    · have key := py_agree_run hreg (hreg.openLaw (mode := u.mode) (all := true) (by rw [ha]; simp)) hsame hhid
        (fun e => by rw [ha] at e; cases e) (s := ⟨w0, [], []⟩) (t := u.table cell d.data.numrecs) hfit
        (by
          rw [hw0]
          refine ⟨⟨⟨rfl, rfl, rfl, by rw [PyFrameSession.table, ha]; simp, rfl, hnn, le_refl _, ?_, hcont.agrees⟩, hmem⟩, rfl, .nil⟩
          intro x hx l hl
          obtain ⟨fv, e1, e2, -⟩ := hcont.entries x hx l hl
          refine ⟨hmarks x hx l hl, by simp [Sess.opened], fv, e1, e2, fun _ => ?_⟩
          have hx' := hx
          rw [joinVars_eq hu.ok hF hrs1] at hx'
          obtain ⟨e, he, rfl⟩ := List.mem_map.1 hx'
          obtain ⟨e0, he0, g1, g2, -⟩ := sig_entry (hu.data.same r0 h0 r1 h1).symm he
          cases hk : e.1 with
          | none => rw [varOf, hk] at hl; cases hl
          | some y =>
            obtain ⟨l', total⟩ := y
            have hll : l' = l := by
              rw [varOf, hk] at hl
              exact Option.some.inj hl
            obtain ⟨e0', he0', k1, k2⟩ := happ ha r0 h0 e0 he0 l' total (g1.trans hk)
            obtain ⟨e', he', j1, j2, -⟩ := sig_entry (hu.data.same r0 h0 r1 h1) he0'
            obtain ⟨fv', e1', -, e3'⟩ := hcont.entries (varOf u.ranks e') (by
              rw [joinVars_eq hu.ok hF hrs1]
              exact List.mem_map_of_mem he') l (by rw [varOf, j1, k1, hll]; rfl)
            rw [e1] at e1'
            cases e1'
            exact e3' (by show HasCell cell e'.2.1; rw [j2]; exact k2))
      rw [hw0] at key
      obtain ⟨k1, k2⟩ := key
      refine ⟨k1, k2.agree.holds, k2.agree.inv.frames, k2.agree.inv.agrees.each, k2.agree.inv.agrees.recs, k2.agree.inv.agrees.last, ?_⟩
      intro x hx l hl
      obtain ⟨-, -, fv, e1, e2, e3⟩ := k2.agree.inv.entries x hx l hl
      exact ⟨fv, e1, e2, fun hh => e3 (Or.inr hh)⟩
  rw [hw0] at main
  unfold Sess.opened at main
  obtain ⟨m1, m2, m3, m4⟩ := main
  refine ⟨?_, ?_, ?_, hd.fits, ?_, ?_⟩
  · rw [hp]; exact m1
  · rw [hp]; exact (programHolds_iff hu.ok hF _ _).2 m2
  · rw [hp]; exact m3
  · intro r hr
    obtain ⟨e1, e2, -⟩ := header_eq h hm h0 hr
    rw [hp, headerOf_map hrs1]
    exact ⟨((hagain r1 h1).2.2.1.trans hd1).trans e1, ((hagain r1 h1).2.2.2.1.trans hd2).trans e2⟩
  · rw [hp]; exact C62_any_program hreg hreg0 hsig.symm m4

theorem py_sessions_behave (h : ProgramOk dom rs) (hm : mode = .write ∨ mode = .overwrite) {D : FileDesc}
    (us : List (PyFrameSession α)) {d : Disk α} {cell : Int → String → Option (Values α)} (hd : FileHas dom rs mode D d cell)
    (hus : PySessionsOk late dom rs cell us) : PySessionsBehave late (storedNames rs) cell us (runPySessions d us) := by
  induction us generalizing d cell with
  | nil => rfl
  | cons u us ih =>
    obtain ⟨h1, h2, h3⟩ := hus
    obtain ⟨h4, h5⟩ := h3 _ hd.nbFrames
    obtain ⟨k1, k2, k3, k4⟩ := use_py_has h hm hd h1 h2 h4
    exact ⟨_, hd.nbFrames, k1, k2, k3, ih k4 h5⟩

theorem py_programs (h : ProgramOk dom rs) (hn : Numbered rs) (hm : mode = .write ∨ mode = .overwrite)
    (garbage : String → List Int → α) (garbageInt : String → List Int → Int) {mem : Memory α} {cur : String → Values α}
    (hmem : ProgramHolds rs mem cur) {xs : List (PyFrameStep (Memory α))} {ys : List (PyFrameStep (String → Values α))}
    (hs : List.Forall₂ (SameStep (ProgramHolds rs)) xs ys)
    (hnames : ∀ x ∈ xs, x.Uses fun u => NoLocalNames rs (u.op (C := Memory α) 0))
    (hfit : FrameTable.Fits late (storedNames rs) ⟨⟨true, 0, cur, fun _ _ => none⟩, [], []⟩ ys) {us : List (PyFrameSession α)}
    (hus : PySessionsOk late dom rs (FrameTable.run late (storedNames rs) ⟨⟨true, 0, cur, fun _ _ => none⟩, [], []⟩ ys).2.table.cell us) :
    let r := createPyFrames mode (rs.map FileRank.colls) garbage garbageInt mem xs
    let t := FrameTable.run late (storedNames rs) ⟨⟨true, 0, cur, fun _ _ => none⟩, [], []⟩ ys
    List.Forall₂ Gives r.1 t.1 ∧ ProgramHolds rs r.2.2.mem t.2.table.cur ∧ r.2.2.sess.nbFrames = t.2.table.nb ∧
      PySessionsBehave late (storedNames rs) t.2.table.cell us (runPySessions r.2.1 us) := by
  intro r t
  obtain ⟨k1, k2, k3, D, hD⟩ := create_py_has h hn hm garbage garbageInt hmem hs hnames hfit
  exact ⟨k1, k2, k3, py_sessions_behave h hm us hD hus⟩

/-- **C106** A python program creates a file and uses it with as many frame objects and iterators as it likes, in any order and also
after exceptions; other python programs open it one after the other and do the same.  Every step gives what is expected when a frame
object stands for a row of a table and an iterator for the rows that there were when it was made, from the first to the last or, for
`reversed`, from the last to the first; the fields have the values that the table gives.  (No program reads what has not been written or
asks for the frame past the end.) -/
theorem C106_programs (h : ProgramOk dom rs) (hn : Numbered rs) (hm : mode = .write ∨ mode = .overwrite)
    (garbage : String → List Int → α) (garbageInt : String → List Int → Int) {mem : Memory α} {cur : String → Values α}
    (hmem : ProgramHolds rs mem cur) {xs : List (PyFrameStep (Memory α))} {ys : List (PyFrameStep (String → Values α))}
    (hs : List.Forall₂ (SameStep (ProgramHolds rs)) xs ys)
    (hnames : ∀ x ∈ xs, x.Uses fun u => NoLocalNames rs (u.op (C := Memory α) 0))
    (hfit : FrameTable.Fits false (storedNames rs) ⟨⟨true, 0, cur, fun _ _ => none⟩, [], []⟩ ys) {us : List (PyFrameSession α)}
    (hus : PySessionsOk false dom rs (FrameTable.run false (storedNames rs) ⟨⟨true, 0, cur, fun _ _ => none⟩, [], []⟩ ys).2.table.cell us) :
    let r := createPyFrames mode (rs.map FileRank.colls) garbage garbageInt mem xs
    let t := FrameTable.run false (storedNames rs) ⟨⟨true, 0, cur, fun _ _ => none⟩, [], []⟩ ys
    List.Forall₂ Gives r.1 t.1 ∧ ProgramHolds rs r.2.2.mem t.2.table.cur ∧ r.2.2.sess.nbFrames = t.2.table.nb ∧
      PySessionsBehave false (storedNames rs) t.2.table.cell us (runPySessions r.2.1 us) :=
  py_programs h hn hm garbage garbageInt hmem hs hnames hfit hus

/-- **C106** The same without the condition on the frame past the end: `file[len(file)]`, which should be refused, gives an object that
stands for the frame appended next; until then `read` and `write` of it are refused. -/
theorem C106_past_end (h : ProgramOk dom rs) (hn : Numbered rs) (hm : mode = .write ∨ mode = .overwrite)
    (garbage : String → List Int → α) (garbageInt : String → List Int → Int) {mem : Memory α} {cur : String → Values α}
    (hmem : ProgramHolds rs mem cur) {xs : List (PyFrameStep (Memory α))} {ys : List (PyFrameStep (String → Values α))}
    (hs : List.Forall₂ (SameStep (ProgramHolds rs)) xs ys)
    (hnames : ∀ x ∈ xs, x.Uses fun u => NoLocalNames rs (u.op (C := Memory α) 0))
    (hfit : FrameTable.Fits true (storedNames rs) ⟨⟨true, 0, cur, fun _ _ => none⟩, [], []⟩ ys) {us : List (PyFrameSession α)}
    (hus : PySessionsOk true dom rs (FrameTable.run true (storedNames rs) ⟨⟨true, 0, cur, fun _ _ => none⟩, [], []⟩ ys).2.table.cell us) :
    let r := createPyFrames mode (rs.map FileRank.colls) garbage garbageInt mem xs
    let t := FrameTable.run true (storedNames rs) ⟨⟨true, 0, cur, fun _ _ => none⟩, [], []⟩ ys
    List.Forall₂ Gives r.1 t.1 ∧ ProgramHolds rs r.2.2.mem t.2.table.cur ∧ r.2.2.sess.nbFrames = t.2.table.nb ∧
      PySessionsBehave true (storedNames rs) t.2.table.cell us (runPySessions r.2.1 us) :=
  py_programs h hn hm garbage garbageInt hmem hs hnames hfit hus

/-! ### An example -/

/-- Two iterators that are both used while frames are appended; the frames that they give are read and written. -/
def exPyProg {C : Type} (c : C) : List (PyFrameStep C) :=
  [.append, .use 0 .writeAll, .compute c, .append, .use 1 .writeAll, .iter, .next 0, .append, .reversed, .use 3 .writeAll, .next 1,
    .next 0, .use 2 (.write ["u"]), .use 5 (.read ["u"]), .next 0, .next 0, .getitem 7, .getitem (-1), .next 1, .use 7 .readAll, .len]

/-- Goes through the frames backwards, and through the file forwards at the same time. -/
def exPyBack {C : Type} : List (PyFrameStep C) :=
  [.reversed, .iter, .next 0, .next 1, .use 0 .readAll, .use 1 .readAll, .next 0, .next 1, .next 0, .next 1, .next 0, .next 1, .len]

theorem exPy_same : List.Forall₂ (SameStep (ProgramHolds exRanks)) (exPyProg (exMem 1000)) (exPyProg (exVal 1000)) := by
  have hc := exRanks_hold 1000
  unfold exPyProg
  repeat' first | exact List.Forall₂.nil | refine List.Forall₂.cons ?_ ?_
  all_goals first | exact .compute hc | constructor

theorem exPy_names : ∀ x ∈ exPyProg (exMem 1000), x.Uses fun u => NoLocalNames exRanks (u.op (C := Memory Int) 0) := by
  simp [exPyProg, PyFrameStep.Uses, FrameUse.op, NoLocalNames, localNames, exRanks, exProc, exCollG, exCollL]

theorem exPy_fits :
    FrameTable.Fits false (storedNames exRanks) ⟨⟨true, 0, exVal 5, fun _ _ => none⟩, [], []⟩ (exPyProg (exVal 1000)) := by
  rw [exStored]
  simp [exPyProg, FrameTable.Fits, FrameTable.Fit, FrameTable.step, Table.step, Table.write, Table.read,
    Table.put, Table.set, handedRow, meantFrame, FrameUse.op, Table.ReadsFilled, Table.Filled, List.range_succ]

/-- What the table expects of the first program. -/
theorem exPy_table :
    let t := FrameTable.run false (storedNames exRanks) ⟨⟨true, 0, exVal 5, fun _ _ => none⟩, [], []⟩ (exPyProg (exVal 1000))
    t.1 = [some (.frame 0), some .done, some .done, some (.frame 1), some .done, some .done, some (.frame 0), some (.frame 2),
        some .done, some .done, some (.frame 2), some (.frame 1), some .done, some .done, some .stop, some .stop, none,
        some (.frame 2), some (.frame 1), some .done, some (.number 3)] ∧
      t.2.table.nb = 3 ∧ ∀ n ∈ ["T", "u", "p"], t.2.table.cell 2 n = some (exVal 1000 n) ∧ t.2.table.cell 1 n = some (exVal 1000 n) ∧
        t.2.table.cell 0 n = some (if n = "u" then exVal 1000 n else exVal 5 n) := by
  rw [exStored]
  simp [exPyProg, FrameTable.run, FrameTable.step, Table.step, Table.write, Table.read,
    Table.put, Table.set, handedRow, meantFrame, FrameUse.op, List.range_succ]

/-- A program with one process reads the file. -/
def exPySessions : List (PyFrameSession Int) := [⟨exRanks', .read, exMem' 30, exVal 30, exPyBack, exPyBack⟩]

theorem exPySessions_ok : PySessionsOk false [3] exRanks
    (FrameTable.run false (storedNames exRanks) ⟨⟨true, 0, exVal 5, fun _ _ => none⟩, [], []⟩ (exPyProg (exVal 1000))).2.table.cell
      exPySessions := by
  have ht := exPy_table
  dsimp only at ht
  obtain ⟨-, -, hval⟩ := ht
  have hout : ∀ fr n v, (FrameTable.run false (storedNames exRanks) ⟨⟨true, 0, exVal 5, fun _ _ => none⟩, [], []⟩
      (exPyProg (exVal 1000))).2.table.cell fr n = some v → 0 ≤ fr ∧ fr < 3 := by
    rw [exStored]
    intro fr n v
    simp [exPyProg, FrameTable.run, FrameTable.step, Table.step, Table.write, Table.read,
      Table.put, Table.set, handedRow, meantFrame, FrameUse.op, List.range_succ]
    intro h
    repeat' split at h
    all_goals first | omega | cases h
  revert hval hout
  generalize (FrameTable.run false (storedNames exRanks) _ (exPyProg (exVal 1000))).2.table.cell = cell
  intro hval hout
  refine ⟨⟨exRanks_ok', exSameData, Or.inl rfl, exRanks_hold' 30, ?_, ?_, ?_⟩, (by simp), ?_⟩
  · show List.Forall₂ _ exPyBack exPyBack
    unfold exPyBack
    repeat' first | exact List.Forall₂.nil | refine List.Forall₂.cons ?_ ?_
    all_goals constructor
  · show ∀ x ∈ exPyBack, _
    simp [exPyBack, PyFrameStep.Uses, FrameUse.op, NoLocalNames]
  · intro _
    show ∀ x ∈ exPyBack, _
    simp [exPyBack, PyFrameStep.Uses, FrameUse.op, RefusedBy, FirstNot]
  · intro nb hnb
    have : nb = 3 := by
      have h1 := hnb.1 2 "u" _ (hval _ (by simp)).1
      rcases hnb.2 with h | ⟨n, v, h⟩
      · omega
      · have := hout _ _ _ h; omega
    subst this
    have g1 := hval "T" (by simp)
    have g2 := hval "u" (by simp)
    have g3 := hval "p" (by simp)
    rw [exStored]
    refine ⟨?_, trivial⟩
    show FrameTable.Fits _ _ _ exPyBack
    simp [exPyBack, PyFrameSession.table, FrameTable.Fits, FrameTable.Fit, FrameTable.step, Table.step, Table.read,
      Table.set, meantFrame, FrameUse.op, Table.ReadsFilled, Table.Filled, List.range_succ, g1, g2, g3]

/-- Both programs do what the table expects. -/
example :
    let r := createPyFrames .write (exRanks.map FileRank.colls) (fun _ _ => 77) (fun _ _ => 78) (exMem 5) (exPyProg (exMem 1000))
    let t := FrameTable.run false (storedNames exRanks) ⟨⟨true, 0, exVal 5, fun _ _ => none⟩, [], []⟩ (exPyProg (exVal 1000))
    List.Forall₂ Gives r.1 t.1 ∧ r.2.2.sess.nbFrames = 3 ∧
      PySessionsBehave false (storedNames exRanks) t.2.table.cell exPySessions (runPySessions r.2.1 exPySessions) := by
  have h := C106_programs exRanks_ok exNumbered (Or.inl rfl) (fun _ _ => 77) (fun _ _ => 78) (exRanks_hold 5) exPy_same
    exPy_names exPy_fits exPySessions_ok
  obtain ⟨h1, -, h3, h4⟩ := h
  have ht := exPy_table
  dsimp only at ht
  exact ⟨h1, h3.trans ht.2.1, h4⟩

/-- The same as the model computes it. -/
example :
    let r := createPyFrames .write (exRanks.map FileRank.colls) (fun _ _ => 77) (fun _ _ => 78) (exMem 5) (exPyProg (exMem 1000))
    let v := usePyFrames .read (exRanks'.map FileRank.colls) r.2.1 (exMem' 30) exPyBack
    r.1 = [.ok (.frame 0), .ok .done, .ok .done, .ok (.frame 1), .ok .done, .ok .done, .ok (.frame 0), .ok (.frame 2),
        .ok .done, .ok .done, .ok (.frame 2), .ok (.frame 1), .ok .done, .ok .done, .ok .stop, .ok .stop, .throw .fileIOError,
        .ok (.frame 2), .ok (.frame 1), .ok .done, .ok (.number 3)] ∧
      v.1 = [.ok .done, .ok .done, .ok (.frame 2), .ok (.frame 0), .ok .done, .ok .done, .ok (.frame 1), .ok (.frame 1),
        .ok (.frame 0), .ok (.frame 2), .ok .stop, .ok .stop, .ok (.number 3)] ∧
      ((v.2.2.mem "p").map fun m => m.bufs.map fun b => [b 0, b 1]) = [[[some 6, some 16]]] := by
  decide +kernel

/-- `file[0]` of an empty file, which is refused until there is a frame. -/
def exPyLate {C : Type} : List (PyFrameStep C) := [.getitem 0, .use 0 .writeAll, .append, .use 0 .writeAll, .use 1 .readAll, .len]

/-- The object obtained from `file[0]` stands for the frame that is appended afterwards. -/
example :
    let r := createPyFrames .write (exRanks.map FileRank.colls) (fun _ _ => 77) (fun _ _ => 78) (exMem 5) exPyLate
    List.Forall₂ Gives r.1 [some (.frame 0), none, some (.frame 0), some .done, some .done, some (.number 1)] := by
  have hs : List.Forall₂ (SameStep (ProgramHolds exRanks)) (exPyLate (C := Memory Int)) exPyLate := by
    unfold exPyLate
    repeat' first | exact List.Forall₂.nil | refine List.Forall₂.cons ?_ ?_
    all_goals constructor
  have h := C106_past_end exRanks_ok exNumbered (Or.inl rfl) (fun _ _ => 77) (fun _ _ => 78) (exRanks_hold 5) hs
    (by simp [exPyLate, PyFrameStep.Uses, FrameUse.op, NoLocalNames])
    (by
      rw [exStored]
      simp [exPyLate, FrameTable.Fits, FrameTable.Fit, FrameTable.step, Table.step, Table.write, Table.put, handedRow,
        meantFrame, FrameUse.op, Table.ReadsFilled, Table.Filled]) (us := []) trivial
  have ht : (FrameTable.run true (storedNames exRanks) ⟨⟨true, 0, exVal 5, fun _ _ => none⟩, [], []⟩ exPyLate).1 =
      [some (.frame 0), none, some (.frame 0), some .done, some .done, some (.number 1)] := by
    rw [exStored]
    simp [exPyLate, FrameTable.run, FrameTable.step, Table.step, Table.write, Table.read, Table.put, Table.set, handedRow,
      meantFrame, FrameUse.op]
  rw [← ht]
  exact h.1

/-- **C106** For programs that do not ask for the frame past the end, `C106_past_end` says the same as `C106_programs`. -/
theorem C106_late {V : Type} {known : List String} {s : FrameTable V} {xs : List (PyFrameStep (String → V))}
    (h : FrameTable.Fits false known s xs) :
    FrameTable.Fits true known s xs ∧ FrameTable.run true known s xs = FrameTable.run false known s xs := by
  induction xs generalizing s with
  | nil => exact ⟨trivial, rfl⟩
  | cons x xs ih =>
    obtain ⟨h1, h2⟩ := h
    have e : s.Fit true known x ∧ s.step true known x = s.step false known x := by
      cases x with
      | getitem i =>
        have hi : i ≠ s.table.nb := h1.resolve_left (by decide)
        refine ⟨Or.inl rfl, ?_⟩
        rw [FrameTable.step, FrameTable.step, handed_of_ne hi, handed_of_ne hi]
      | _ => exact ⟨h1, rfl⟩
    rw [FrameTable.Fits, FrameTable.run, FrameTable.run, e.2, (ih h2).2]
    exact ⟨⟨e.1, (ih h2).1⟩, rfl⟩

/-- The program of the example. -/
example :
    FrameTable.Fits true (storedNames exRanks) ⟨⟨true, 0, exVal 5, fun _ _ => none⟩, [], []⟩ (exPyProg (exVal 1000)) :=
  (C106_late exPy_fits).1

end Verif.Props
