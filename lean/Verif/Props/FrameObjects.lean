import Verif.Lemmas.FrameObjects
import Verif.Props.FileRanksEx
/-
**C102** Programs that use a file through frame objects and loops over the frames.
-/
namespace Verif.Props
open Verif Verif.Ccoord Verif.Layout Verif.Layout.FieldLayout Verif.RawMemory Verif.FileIO Verif.NetCDF

variable {α : Type} {dom : List Int} {rs rs' : List FileRank} {mode : OpenMode} {late : Bool}

/-! ### The frames do not go away, and loops over them end -/

theorem getEntries_nb {s s' : Sess} {l : String} {fr : Int} {file : NcFile α} (h : s.getEntries l fr file = .ok s') :
    s'.nbFrames = s.nbFrames := by
  unfold Sess.getEntries at h
  split at h
  · rw [Res.bind_eq_ok] at h
    obtain ⟨ms, -, h⟩ := h
    cases h
    rfl
  · cases h

theorem entriesForWrite_nb {s : Sess} {x : SessVar} {fr : Int} {file : NcFile α} {r : Sess × NcFile α}
    (h : s.entriesForWrite x fr file = .ok r) : r.1.nbFrames = s.nbFrames := by
  unfold Sess.entriesForWrite at h
  split at h
  · cases h; rfl
  · split at h
    · split at h
      · cases h; rfl
      · rw [Res.bind_eq_ok] at h; obtain ⟨f, -, h⟩ := h; cases h; rfl
    · split at h
      · cases h; rfl
      · rw [Res.bind_eq_ok] at h; obtain ⟨f, -, h⟩ := h; cases h; rfl
    · split at h
      · cases h; rfl
      · rw [Res.bind_eq_ok] at h
        obtain ⟨s', h1, h⟩ := h
        cases h
        have h2 := getEntries_nb h1
        exact h2
    · cases h; rfl

theorem entriesForRead_nb {s s' : Sess} {x : SessVar} {file : NcFile α} (h : s.entriesForRead x file = .ok s') :
    s'.nbFrames = s.nbFrames := by
  unfold Sess.entriesForRead at h
  split at h
  · cases h; rfl
  · split at h
    · cases h; rfl
    · rw [Res.bind_eq_ok] at h
      obtain ⟨s1, h1, h⟩ := h
      cases h
      have h2 := getEntries_nb h1
      exact h2

theorem writeNames_nb (mem : Memory α) (fr : Int) : ∀ (ns : List String) (st : Sess × NcFile α),
    (writeNames mem fr ns st).2.1.nbFrames = st.1.nbFrames
  | [], _ => rfl
  | n :: ns, st => by
    rw [writeNames]
    split
    · split
      · rename_i h1
        split
        · have h2 := entriesForWrite_nb h1
          exact (writeNames_nb mem fr ns _).trans h2
        · exact entriesForWrite_nb h1
        · exact entriesForWrite_nb h1
      · rfl
      · rfl
    · split
      · exact writeNames_nb mem fr ns _
      · rfl
      · rfl

theorem readNames_nb (file : NcFile α) (fr : Int) : ∀ (ns : List String) (st : Sess × Memory α),
    (readNames file fr ns st).2.1.nbFrames = st.1.nbFrames
  | [], _ => rfl
  | n :: ns, st => by
    rw [readNames]
    split
    · split
      · rename_i h1
        split
        · exact (readNames_nb file fr ns _).trans (entriesForRead_nb h1)
        · exact entriesForRead_nb h1
        · exact entriesForRead_nb h1
      · rfl
      · rfl
    · split
      · rename_i h1
        exact (readNames_nb file fr ns _).trans (getEntries_nb h1)
      · rfl
      · rfl

theorem world_step_nb (w : World α) (op : FileOp (Memory α)) : w.sess.nbFrames ≤ (w.step op).2.sess.nbFrames := by
  cases op with
  | appendFrame => show w.sess.nbFrames ≤ w.sess.nbFrames + 1; omega
  | write frame names => exact le_of_eq (writeNames_nb w.mem frame names (w.sess, w.file)).symm
  | writeAll frame => exact le_of_eq (writeNames_nb w.mem frame w.sess.names (w.sess, w.file)).symm
  | read frame names => exact le_of_eq (readNames_nb w.file frame names (w.sess, w.mem)).symm
  | readAll frame => exact le_of_eq (readNames_nb w.file frame w.sess.names (w.sess, w.mem)).symm
  | compute c => exact le_refl _

theorem unlessThrown_nb {r : Res Unit × World α} {k : World α → Res Unit × World α} {nb : Int} (h : nb ≤ r.2.sess.nbFrames)
    (hk : ∀ w, w.sess.nbFrames ≤ (k w).2.sess.nbFrames) : nb ≤ (unlessThrown r k).2.sess.nbFrames := by
  unfold unlessThrown
  split
  · exact h.trans (hk _)
  · exact h

theorem forFrames_nb {body : Int → World α → Res Unit × World α} (hb : ∀ fr w, w.sess.nbFrames ≤ (body fr w).2.sess.nbFrames)
    (stop : Int) : ∀ (n : Nat) (i : Int) (w : World α), w.sess.nbFrames ≤ (forFrames body stop n i w).2.sess.nbFrames
  | 0, i, w => by
    rw [forFrames]
    split <;> exact le_refl _
  | n + 1, i, w => by
    rw [forFrames]
    split
    · exact le_refl _
    · split
      · exact unlessThrown_nb (hb _ _) (forFrames_nb hb stop n (i + 1))
      · exact le_refl _
      · exact le_refl _

theorem world_exec_nb (p : FrameProg (Memory α)) : ∀ (env : List Int) (w : World α),
    w.sess.nbFrames ≤ (World.exec p env w).2.sess.nbFrames := by
  induction p with
  | done => exact fun _ _ => le_refl _
  | take i p ih =>
    intro env w
    rw [World.exec]
    split
    · exact ih _ _
    · exact le_refl _
    · exact le_refl _
  | append p ih =>
    intro env w
    rw [World.exec]
    exact (world_step_nb w .appendFrame).trans (ih _ _)
  | use h u p ih =>
    intro env w
    rw [World.exec]
    split
    · exact unlessThrown_nb (world_step_nb _ _) (ih _)
    · exact le_refl _
  | compute c p ih =>
    intro env w
    rw [World.exec]
    exact unlessThrown_nb (world_step_nb _ _) (ih _)
  | forEach body p ihb ih =>
    intro env w
    rw [World.exec]
    exact unlessThrown_nb (forFrames_nb (fun fr w => ihb _ _) _ _ _ _) (ih _)
  | attempt body p ihb ih =>
    intro env w
    rw [World.exec]
    split
    · exact ihb _ _
    · exact (ihb _ _).trans (ih _ _)

/-- **C102** Whatever a program does after it has made a frame object for one of the frames, and whichever exceptions there are:
the frame is still there, and `file[i]` with the same index gives the same frame. -/
theorem C102_stays (p : FrameProg (Memory α)) (env : List Int) (w : World α) (i : Int) (h0 : 0 ≤ i) (h1 : i < w.sess.nbFrames) :
    frameAt w.sess.nbFrames i = .ok i ∧ frameAt (World.exec p env w).2.sess.nbFrames i = .ok i ∧
      varFrame (World.exec p env w).2.sess.nbFrames i = .ok i := by
  have h := world_exec_nb p env w
  refine ⟨frameAt_inside h0 h1, frameAt_inside h0 (by omega), ?_⟩
  rw [C34_direct _ _ (by omega), if_pos (by omega), Int.emod_eq_of_lt h0 (by omega)]

example (w : World α) (h : w.sess.nbFrames = 2) :
    frameAt (World.exec (.append (.append .done)) [] w).2.sess.nbFrames 1 = .ok 1 ∧
      frameAt (World.exec (.append (.append .done)) [] w).2.sess.nbFrames (-1) = .ok 3 := by
  have : (World.exec (.append (.append .done)) [] w).2.sess.nbFrames = 4 := by
    show w.sess.nbFrames + 1 + 1 = 4
    omega
  rw [this]
  decide

theorem forFrames_inOrder {body : Int → World α → Res Unit × World α} (hb : ∀ fr w, w.sess.nbFrames ≤ (body fr w).2.sess.nbFrames) :
    ∀ (n k : Nat) (w : World α), ((k + n : Nat) : Int) ≤ w.sess.nbFrames →
      forFrames body ((k + n : Nat) : Int) n k w = inOrder (fun j : Nat => body j) (List.range' k n) w
  | 0, k, w, _ => by
    rw [forFrames, if_pos (by simp)]
    rfl
  | n + 1, k, w, h => by
    rw [forFrames, if_neg (by omega)]
    rw [frameAt_inside (by omega) (by omega), List.range'_succ]
    dsimp only
    rw [inOrder]
    have h1 := hb (k : Int) w
    revert h1
    generalize body (k : Int) w = r
    obtain ⟨r1, r2⟩ := r
    intro h1
    cases r1 with
    | ok u =>
      have := forFrames_inOrder hb n (k + 1) r2 (by
        have : k + 1 + n = k + (n + 1) := by omega
        rw [this]; exact h.trans h1)
      rw [show k + 1 + n = k + (n + 1) by omega] at this
      exact this
    | throw e => rfl
    | ub => rfl

/-- **C102** The loop `for (auto && frame : file)` does its body once for every frame that there is when it begins, in order, also if
the body appends frames, and it ends. -/
theorem C102_loop (body p : FrameProg (Memory α)) (env : List Int) (w : World α) (h0 : 0 ≤ w.sess.nbFrames) :
    World.exec (.forEach body p) env w =
      unlessThrown (inOrder (fun k : Nat => World.exec body ((k : Int) :: env)) (List.range w.sess.nbFrames.toNat) w)
        (World.exec p env) := by
  rw [World.exec]
  have h := forFrames_inOrder (body := fun fr => World.exec body (fr :: env)) (fun fr w => world_exec_nb body _ w)
    w.sess.nbFrames.toNat 0 w (by omega)
  rw [show ((0 + w.sess.nbFrames.toNat : Nat) : Int) = size w.sess.nbFrames by unfold size; omega] at h
  rw [List.range_eq_range', ← h]
  rfl

/-- A loop that appends a frame for every frame: there are twice as many afterwards. -/
example (w : World α) (h : w.sess.nbFrames = 2) :
    (World.exec (.forEach (.append .done) .done) [] w).1 = .ok () ∧
      (World.exec (.forEach (.append .done) .done) [] w).2.sess.nbFrames = 4 := by
  rw [C102_loop _ _ _ _ (by omega), h]
  refine ⟨rfl, ?_⟩
  show w.sess.nbFrames + 1 + 1 = 4
  omega

/-! ### The programs -/

theorem sameProg_congr {C D : Type} {R R' : C → D → Prop} (hR : ∀ c d, R c d → R' c d) {p : FrameProg C} {q : FrameProg D}
    (h : SameProg R p q) : SameProg R' p q := by
  induction h with
  | done => exact .done
  | take i _ ih => exact .take i ih
  | append _ ih => exact .append ih
  | use k u _ ih => exact .use k u ih
  | compute hc _ ih => exact .compute (hR _ _ hc) ih
  | forEach _ _ ihb ih => exact .forEach ihb ih
  | attempt _ _ ihb ih => exact .attempt ihb ih

theorem uses_mono {C : Type} {P Q : FrameUse → Prop} (hPQ : ∀ u, P u → Q u) {p : FrameProg C} (h : p.Uses P) : p.Uses Q := by
  induction p with
  | done => trivial
  | take i p ih => exact ih h
  | append p ih => exact ih h
  | use k u p ih => exact ⟨hPQ u h.1, ih h.2⟩
  | compute c p ih => exact ih h
  | forEach b p ihb ih => exact ⟨ihb h.1, ih h.2⟩
  | attempt b p ihb ih => exact ⟨ihb h.1, ih h.2⟩

theorem create_frames_has (h : ProgramOk dom rs) (hn : Numbered rs) (hm : mode = .write ∨ mode = .overwrite)
    (garbage : String → List Int → α) (garbageInt : String → List Int → Int) {mem : Memory α} {cur : String → Values α}
    (hmem : ProgramHolds rs mem cur) {p : FrameProg (Memory α)} {q : FrameProg (String → Values α)}
    (hs : SameProg (ProgramHolds rs) p q) (hnames : p.Uses fun u => NoLocalNames rs (u.op (C := Memory α) 0))
    (hfit : Table.Fits late (storedNames rs) q [] ⟨true, 0, cur, fun _ _ => none⟩) :
    let r := createFrames mode (rs.map FileRank.colls) garbage garbageInt mem p
    let t := Table.exec late (storedNames rs) q [] ⟨true, 0, cur, fun _ _ => none⟩
    AsExpected r.1 t.1 ∧ ProgramHolds rs r.2.2.mem t.2.cur ∧ r.2.2.sess.nbFrames = t.2.nb ∧
      ∃ D, FileHas dom rs mode D r.2.1 t.2.cell := by
  intro r t
  obtain ⟨D, hD, hM⟩ := exists_fits h hn
  have hF : ∀ r ∈ rs, RegOf mode r (regOf mode [] [] 0 r) := fun r hr => regOf_new h hm hr
  have hreg := registered_of h hD hF
  have hcon := created_contains hreg garbage garbageInt
  have hsess := joinSess_created (mode := mode) (F := regOf mode [] [] 0) h.nonempty
    (fun r hr => (regOf_writing h hm hr).2.nbFrames)
  have hr : r = createFrames mode (rs.map FileRank.colls) garbage garbageInt mem p := rfl
  unfold createFrames at hr
  dsimp only at hr
  rw [registerRanks_snd, hsess] at hr
  have main := agree_exec hreg (hreg.writeLaw hm) (sameProg_congr (fun m c => (programHolds_iff h hF m c).1) hs)
    (uses_mono (fun u hu => noHidden_of h hF _ hu) hnames) (fun e => by rcases hm with rfl | rfl <;> cases e) []
    ⟨Sess.created mode (joinVars (rs.map (regOf mode [] [] 0))) (joinHidden (rs.map (regOf mode [] [] 0)))
      (joinMarks (rs.map (regOf mode [] [] 0))), NcFile.created _ _ garbage garbageInt, mem⟩
    ⟨true, 0, cur, fun _ _ => none⟩ (by rw [storedNames_eq h hF]; exact hfit)
    ⟨⟨rfl, rfl, rfl, by rcases hm with rfl | rfl <;> simp, rfl, le_refl _, le_refl _, by
      intro x hx l hl
      obtain ⟨fv, e1, e2, -⟩ := hcon.entries x hx l hl
      refine ⟨?_, fv, e1, e2, by simp [Sess.created], ?_⟩
      · obtain ⟨r, hr, y, hy⟩ := var_local h hF hx hl
        exact marks_entries h hF hm hr hy fun r hr ids total off hl => hM r hr l ids total off hl
      · rintro ⟨fr, v, hcv⟩
        exact absurd hcv (by simp), hcon.agrees⟩, (programHolds_iff h hF mem cur).1 hmem⟩
  rw [storedNames_eq h hF] at main
  obtain ⟨m1, m2⟩ := main
  obtain ⟨r0, rest, hrs⟩ : ∃ r0 rest, rs = r0 :: rest := by
    cases hrs : rs with
    | nil => exact absurd hrs h.nonempty
    | cons a l => exact ⟨a, l, rfl⟩
  have h0 : r0 ∈ rs := by rw [hrs]; simp
  refine ⟨?_, ?_, ?_, D, hD, ?_, ?_⟩
  · rw [hr]; exact m1
  · rw [hr]; exact (programHolds_iff h hF _ _).2 m2.holds
  · rw [hr]; exact m2.inv.frames
  · intro r' hr'
    obtain ⟨e1, e2, -⟩ := header_eq h hm h0 hr'
    rw [hr, headerOf_map hrs]
    exact ⟨e1, e2⟩
  · rw [hr]
    refine ⟨m2.inv.agrees.each, m2.inv.agrees.recs, m2.inv.agrees.last, ?_⟩
    intro x hx l hl
    obtain ⟨-, fv, e1, e2, e3, e4⟩ := m2.inv.entries x hx l hl
    exact ⟨fv, e1, e2, fun hh => e3 (e4 hh)⟩

theorem use_frames_has (h : ProgramOk dom rs) (hm : mode = .write ∨ mode = .overwrite) {D : FileDesc} {d : Disk α}
    {cell : Int → String → Option (Values α)} (hd : FileHas dom rs mode D d cell) {u : FrameSession α} (hu : u.Ok dom rs)
    (happ : u.mode = .append → ∀ r ∈ rs, ∀ e ∈ r.entries, ∀ l total, e.1 = some (l, total) →
        ∃ e' ∈ r.entries, e'.1 = some (l, total) ∧ HasCell cell e'.2.1)
    (hfit : (u.table cell d.data.numrecs).Fits late (storedNames rs) u.sprog []) :
    let p := useFrames u.mode (u.ranks.map FileRank.colls) d u.mem u.prog
    let t := (u.table cell d.data.numrecs).exec late (storedNames rs) u.sprog []
    AsExpected p.1 t.1 ∧ ProgramHolds u.ranks p.2.2.mem t.2.cur ∧ p.2.2.sess.nbFrames = t.2.nb ∧
      FileHas dom rs mode D p.2.1 t.2.cell := by
  intro p t
  obtain ⟨r0, rest, hrs⟩ : ∃ r0 rest, rs = r0 :: rest := by
    cases hrs : rs with
    | nil => exact absurd hrs h.nonempty
    | cons a l => exact ⟨a, l, rfl⟩
  have h0 : r0 ∈ rs := by rw [hrs]; simp
  obtain ⟨hd1, hd2⟩ := hd.header r0 h0
  have hF0 : ∀ r ∈ rs, RegOf mode r (regOf mode [] [] 0 r) := fun r hr => regOf_new h hm hr
  have hagain := fun r' hr' => regOf_again h hm h0 hu.ok hu.data hu.mode d.data.numrecs (r' := r') hr'
  dsimp only at hagain
  rw [← hd1, ← hd2] at hagain
  have hF : ∀ r ∈ u.ranks, RegOf u.mode r (regOf u.mode d.dims d.vars d.data.numrecs r) := fun r hr => (hagain r hr).2.1
  have hD := fits_of_same h hd.fits hu.ok hu.data
  have hreg0 := registered_of h hd.fits hF0
  have hreg := registered_of hu.ok hD hF
  have hsig := signature_eq h hF0 hu.ok hF hu.data
  have hcont := C62_any_program hreg0 hreg hsig hd.values
  have hnm : storedNames rs = storedNames u.ranks := by
    rw [← storedNames_eq h hF0, ← storedNames_eq hu.ok hF]
    have := congrArg (List.map Prod.fst) hsig
    rwa [List.map_map, List.map_map] at this
  have hsess := joinSess_created (mode := u.mode) (F := regOf u.mode d.dims d.vars d.data.numrecs) hu.ok.nonempty
    (fun r hr => (hagain r hr).2.2.2.2)
  have hmarks : ∀ x ∈ joinVars (u.ranks.map (regOf u.mode d.dims d.vars d.data.numrecs)), ∀ l, x.localName = some l →
      (joinMarks (u.ranks.map (regOf u.mode d.dims d.vars d.data.numrecs)) l).map List.length =
        ((progOf u.ranks).hid l).map HiddenPart.size := by
    intro x hx l hl
    obtain ⟨r, hr, y, hy⟩ := var_local hu.ok hF hx hl
    exact marks_lengths hu.ok hF hu.mode hr hy
  obtain ⟨r1, rest1, hrs1⟩ : ∃ r0 rest, u.ranks = r0 :: rest := by
    cases hrs : u.ranks with
    | nil => exact absurd hrs hu.ok.nonempty
    | cons a l => exact ⟨a, l, rfl⟩
  have h1 : r1 ∈ u.ranks := by rw [hrs1]; simp
  have hnn : 0 ≤ d.data.numrecs := by
    rcases hcont.last with h | ⟨n, val, h⟩
    · omega
    · have := hcont.recs _ _ _ h; omega
  have hmem := (programHolds_iff hu.ok hF _ _).1 hu.mem
  have hsame := sameProg_congr (fun m c => (programHolds_iff hu.ok hF m c).1) hu.same
  have hhid := uses_mono (fun f hf => noHidden_of hu.ok hF (joinVars (u.ranks.map (regOf u.mode d.dims d.vars d.data.numrecs))) hf)
    hu.names
  have ht : t = (u.table cell d.data.numrecs).exec late (storedNames rs) u.sprog [] := rfl
  rw [hnm, ← storedNames_eq hu.ok hF] at hfit ht
  have hp : p = useFrames u.mode (u.ranks.map FileRank.colls) d u.mem u.prog := rfl
  unfold useFrames at hp
  dsimp only at hp
  rw [registerRanks_snd, hsess] at hp
  obtain ⟨w0, hw0⟩ : ∃ w0 : World α, w0 = ⟨Sess.opened u.mode (joinVars (u.ranks.map (regOf u.mode d.dims d.vars d.data.numrecs)))
    (joinHidden (u.ranks.map (regOf u.mode d.dims d.vars d.data.numrecs)))
    (joinMarks (u.ranks.map (regOf u.mode d.dims d.vars d.data.numrecs))) d.data, d.data, u.mem⟩ := ⟨_, rfl⟩
  have main : AsExpected (World.exec u.prog [] w0).1 t.1 ∧
      (∀ x ∈ joinVars (u.ranks.map (regOf u.mode d.dims d.vars d.data.numrecs)),
        VarHolds (progOf u.ranks) x ((World.exec u.prog [] w0).2.mem x.name) (t.2.cur x.name)) ∧
      (World.exec u.prog [] w0).2.sess.nbFrames = t.2.nb ∧
      Contains D (progOf u.ranks) (joinVars (u.ranks.map (regOf u.mode d.dims d.vars d.data.numrecs)))
        (World.exec u.prog [] w0).2.file t.2.cell := by
    rw [ht, hw0]
    rcases hu.mode with hr | ha
    · have key := agree_exec hreg (hreg.openLaw (mode := u.mode) (all := false) (by rw [hr]; simp)) hsame hhid
        (fun e => uses_mono (fun f hf => refused_of hu.ok hF hf) (hu.refused hr)) [] w0
        (u.table cell d.data.numrecs) hfit
        (by
          rw [hw0]
          refine ⟨⟨rfl, rfl, rfl, by rw [FrameSession.table, hr]; simp, rfl, hnn, le_refl _, ?_, hcont.agrees⟩, hmem⟩
          intro x hx l hl
          obtain ⟨fv, e1, e2, e3⟩ := hcont.entries x hx l hl
          exact ⟨hmarks x hx l hl, by simp [Sess.opened], fv, e1, e2, fun hh => e3 (hh.resolve_left (by simp))⟩)
      rw [hw0] at key
      obtain ⟨k1, k2⟩ := key
      refine ⟨k1, k2.holds, k2.inv.frames, k2.inv.agrees.each, k2.inv.agrees.recs, k2.inv.agrees.last, ?_⟩
      intro x hx l hl
      obtain ⟨-, -, fv, e1, e2, e3⟩ := k2.inv.entries x hx l hl
      exact ⟨fv, e1, e2, fun hh => e3 (Or.inr hh)⟩
    · have key := agree_exec hreg (hreg.openLaw (mode := u.mode) (all := true) (by rw [ha]; simp)) hsame hhid
        (fun e => by rw [ha] at e; cases e) [] w0 (u.table cell d.data.numrecs) hfit
        (by
          rw [hw0]
          refine ⟨⟨rfl, rfl, rfl, by rw [FrameSession.table, ha]; simp, rfl, hnn, le_refl _, ?_, hcont.agrees⟩, hmem⟩
          intro x hx l hl
          obtain ⟨fv, e1, e2, -⟩ := hcont.entries x hx l hl
          refine ⟨hmarks x hx l hl, by simp [Sess.opened], fv, e1, e2, fun _ => ?_⟩
          have hx' := hx
          rw [joinVars_eq hu.ok hF hrs1] at hx'
          obtain ⟨e, he, rfl⟩ := List.mem_map.1 hx'
          obtain ⟨e0, he0, g1, g2, -⟩ := sig_entry (hu.data.same r0 h0 r1 h1).symm he
          cases hk : e.1 with
          | none => rw [varOf, hk] at hl; cases hl
          | some y =>
            obtain ⟨l', total⟩ := y
            have hll : l' = l := by
              rw [varOf, hk] at hl
              exact Option.some.inj hl
            obtain ⟨e0', he0', k1, k2⟩ := happ ha r0 h0 e0 he0 l' total (g1.trans hk)
            obtain ⟨e', he', j1, j2, -⟩ := sig_entry (hu.data.same r0 h0 r1 h1) he0'
            obtain ⟨fv', e1', -, e3'⟩ := hcont.entries (varOf u.ranks e') (by
              rw [joinVars_eq hu.ok hF hrs1]
              exact List.mem_map_of_mem he') l (by rw [varOf, j1, k1, hll]; rfl)
            rw [e1] at e1'
            cases e1'
            exact e3' (by show HasCell cell e'.2.1; rw [j2]; exact k2))
      rw [hw0] at key
      obtain ⟨k1, k2⟩ := key
      refine ⟨k1, k2.holds, k2.inv.frames, k2.inv.agrees.each, k2.inv.agrees.recs, k2.inv.agrees.last, ?_⟩
      intro x hx l hl
      obtain ⟨-, -, fv, e1, e2, e3⟩ := k2.inv.entries x hx l hl
      exact ⟨fv, e1, e2, fun hh => e3 (Or.inr hh)⟩
  rw [hw0] at main
  unfold Sess.opened at main
  obtain ⟨m1, m2, m3, m4⟩ := main
  refine ⟨?_, ?_, ?_, hd.fits, ?_, ?_⟩
  · rw [hp]; exact m1
  · rw [hp]; exact (programHolds_iff hu.ok hF _ _).2 m2
  · rw [hp]; exact m3
  · intro r hr
    obtain ⟨e1, e2, -⟩ := header_eq h hm h0 hr
    rw [hp, headerOf_map hrs1]
    exact ⟨((hagain r1 h1).2.2.1.trans hd1).trans e1, ((hagain r1 h1).2.2.2.1.trans hd2).trans e2⟩
  · rw [hp]; exact C62_any_program hreg hreg0 hsig.symm m4

theorem sessions_behave (h : ProgramOk dom rs) (hm : mode = .write ∨ mode = .overwrite) {D : FileDesc}
    (us : List (FrameSession α)) {d : Disk α} {cell : Int → String → Option (Values α)} (hd : FileHas dom rs mode D d cell)
    (hus : SessionsOk late dom rs cell us) : SessionsBehave late (storedNames rs) cell us (runSessions d us) := by
  induction us generalizing d cell with
  | nil => rfl
  | cons u us ih =>
    obtain ⟨h1, h2, h3⟩ := hus
    obtain ⟨h4, h5⟩ := h3 _ hd.nbFrames
    obtain ⟨k1, k2, k3, k4⟩ := use_frames_has h hm hd h1 h2 h4
    exact ⟨_, hd.nbFrames, k1, k2, k3, ih k4 h5⟩

/-- **C102** A program creates a file and uses it through frame objects, with loops over the frames and with exceptions that it
catches; other programs open it one after the other and do the same.  Every program ends as expected when a frame object stands for
a row of a table, whatever is appended after it was made, and a loop goes through the rows that there are when it begins; the fields
have the values that the table gives.  With `late = true`, `file[n]` of a file with `n` frames stands for the row appended next; with
`late = false` no program asks for it.  (No program reads what has not been written.) -/
theorem C102_programs_partial (h : ProgramOk dom rs) (hn : Numbered rs) (hm : mode = .write ∨ mode = .overwrite)
    (garbage : String → List Int → α) (garbageInt : String → List Int → Int) {mem : Memory α} {cur : String → Values α}
    (hmem : ProgramHolds rs mem cur) {p : FrameProg (Memory α)} {q : FrameProg (String → Values α)}
    (hs : SameProg (ProgramHolds rs) p q) (hnames : p.Uses fun u => NoLocalNames rs (u.op (C := Memory α) 0))
    (hfit : Table.Fits late (storedNames rs) q [] ⟨true, 0, cur, fun _ _ => none⟩) {us : List (FrameSession α)}
    (hus : SessionsOk late dom rs (Table.exec late (storedNames rs) q [] ⟨true, 0, cur, fun _ _ => none⟩).2.cell us) :
    let r := createFrames mode (rs.map FileRank.colls) garbage garbageInt mem p
    let t := Table.exec late (storedNames rs) q [] ⟨true, 0, cur, fun _ _ => none⟩
    AsExpected r.1 t.1 ∧ ProgramHolds rs r.2.2.mem t.2.cur ∧ r.2.2.sess.nbFrames = t.2.nb ∧
      SessionsBehave late (storedNames rs) t.2.cell us (runSessions r.2.1 us) := by
  intro r t
  obtain ⟨k1, k2, k3, D, hD⟩ := create_frames_has h hn hm garbage garbageInt hmem hs hnames hfit
  exact ⟨k1, k2, k3, sessions_behave h hm us hD hus⟩

/-- Without the condition on `file[n]`: `auto frame = file[i]; file.append_frame(); frame.write()` in a new file. -/
def C102_statement : Prop :=
  ∀ (dom : List Int) (rs : List FileRank) (mem : Memory Int) (cur : String → Values Int), ProgramOk dom rs → Numbered rs →
    ProgramHolds rs mem cur → ∀ i : Int,
      AsExpected
        (createFrames .write (rs.map FileRank.colls) (fun _ _ => 0) (fun _ _ => 0) mem (.take i (.append (.use 1 .writeAll .done)))).1
        (Table.exec false (storedNames rs) (.take i (.append (.use 1 .writeAll .done))) [] ⟨true, 0, cur, fun _ _ => none⟩).1

/-- **C102** `file[0]` of a file without frames gives a frame object, and it is that of the frame appended later. -/
theorem C102_false : ¬ C102_statement := by
  intro h
  have h1 := h [3] exRanks (exMem 5) (exVal 5) exRanks_ok exNumbered (exRanks_hold 5) 0
  have h2 : (createFrames .write (exRanks.map FileRank.colls) (fun _ _ => (0 : Int)) (fun _ _ => 0) (exMem 5)
      (.take 0 (.append (.use 1 .writeAll .done)))).1 = .ok () := by decide +kernel
  rw [h2] at h1
  simp [AsExpected, Table.exec, handedRow, meantFrame] at h1

/-- Asks for `file[0]` of a file without frames, appends a frame, writes with the first frame object and reads with the
second one. -/
def exLateProg {C : Type} : FrameProg C := .take 0 (.append (.use 1 .writeAll (.use 0 .readAll .done)))

/-- The program that refutes `C102_statement` ends as the table expects of it when `file[n]` is the row appended next. -/
example :
    let r := createFrames .write (exRanks.map FileRank.colls) (fun _ _ => 77) (fun _ _ => 78) (exMem 5) exLateProg
    let t := Table.exec true (storedNames exRanks) exLateProg [] ⟨true, 0, exVal 5, fun _ _ => none⟩
    t.1 = true ∧ AsExpected r.1 t.1 ∧ ProgramHolds exRanks r.2.2.mem t.2.cur ∧ r.2.2.sess.nbFrames = t.2.nb := by
  have hfit : Table.Fits true (storedNames exRanks) exLateProg [] ⟨true, 0, exVal 5, fun _ _ => none⟩ := by
    rw [exStored]
    simp [exLateProg, Table.Fits, Table.step, Table.write, Table.read, Table.put, Table.set, handedRow, meantFrame, FrameUse.op,
      Table.ReadsFilled, Table.Filled]
  have h := C102_programs_partial (us := []) exRanks_ok exNumbered (Or.inl rfl) (fun _ _ => 77) (fun _ _ => 78) (exRanks_hold 5)
    (.take 0 (.append (.use 1 .writeAll (.use 0 .readAll .done)))) (by simp [FrameProg.Uses, FrameUse.op, NoLocalNames]) hfit trivial
  refine ⟨?_, h.1, h.2.1, h.2.2.1⟩
  rw [exStored]
  simp [exLateProg, Table.exec, Table.after, Table.step, Table.write, Table.read, Table.put, Table.set, handedRow, meantFrame,
    FrameUse.op]

/-! ### An example -/

/-- Two frames; the object of the first one is used again after the second one has been appended; an exception is caught; the frames
are read in a loop. -/
def exFrameProg {C : Type} (c : C) : FrameProg C :=
  .append (.use 0 .writeAll (.compute c (.append (.use 0 .writeAll (.use 1 (.write ["u"]) (.attempt (.take 7 .done)
    (.forEach (.use 0 (.read ["u"]) .done) .done)))))))

/-- Appends a copy of what it has for every frame, then reads the frame. -/
def exCopyProg {C : Type} : FrameProg C := .forEach (.append (.use 0 .writeAll (.use 1 .readAll .done))) .done

/-- Tries to write into a file opened for reading, then reads the last frame. -/
def exLastProg {C : Type} : FrameProg C := .take (-1) (.attempt (.use 0 (.write ["u"]) .done) (.use 0 .readAll .done))

theorem exFrame_same : SameProg (ProgramHolds exRanks) (exFrameProg (exMem 1000)) (exFrameProg (exVal 1000)) :=
  .append (.use _ _ (.compute (exRanks_hold 1000) (.append (.use _ _ (.use _ _ (.attempt (.take _ .done)
    (.forEach (.use _ _ .done) .done)))))))

theorem exFrame_names : (exFrameProg (exMem 1000)).Uses fun u => NoLocalNames exRanks (u.op (C := Memory Int) 0) := by
  simp [exFrameProg, FrameProg.Uses, FrameUse.op, NoLocalNames, localNames, exRanks, exProc, exCollG, exCollL]

theorem exFrame_fits : Table.Fits false (storedNames exRanks) (exFrameProg (exVal 1000)) [] ⟨true, 0, exVal 5, fun _ _ => none⟩ := by
  rw [exStored]
  simp [exFrameProg, Table.Fits, Table.FitsRows, Table.exec, Table.after, Table.step, Table.write, Table.read,
    Table.put, Table.set, handedRow, meantFrame, FrameUse.op, Table.ReadsFilled, Table.Filled, List.range_succ]

/-- What the table expects of the first program: the second set of values in `u` of the first frame too. -/
theorem exFrame_table :
    let t := Table.exec false (storedNames exRanks) (exFrameProg (exVal 1000)) [] ⟨true, 0, exVal 5, fun _ _ => none⟩
    t.1 = true ∧ t.2.nb = 2 ∧ ∀ n ∈ ["T", "u", "p"], t.2.cell 1 n = some (exVal 1000 n) ∧
      t.2.cell 0 n = some (if n = "u" then exVal 1000 n else exVal 5 n) := by
  rw [exStored]
  simp [exFrameProg, Table.exec, Table.after, Table.forRows, Table.step, Table.write, Table.read,
    Table.put, Table.set, handedRow, meantFrame, FrameUse.op, List.range_succ]

/-- The program with one process copies the frames, and the one with two processes reads the last of them. -/
def exSessions : List (FrameSession Int) :=
  [⟨exRanks', .append, exMem' 30, exVal 30, exCopyProg, exCopyProg⟩, ⟨exRanks, .read, exMem 0, exVal 0, exLastProg, exLastProg⟩]

theorem exSessions_ok : SessionsOk false [3] exRanks
    (Table.exec false (storedNames exRanks) (exFrameProg (exVal 1000)) [] ⟨true, 0, exVal 5, fun _ _ => none⟩).2.cell exSessions := by
  have ht := exFrame_table
  dsimp only at ht
  obtain ⟨-, -, hval⟩ := ht
  have hout : ∀ fr n v, (Table.exec false (storedNames exRanks) (exFrameProg (exVal 1000)) [] ⟨true, 0, exVal 5, fun _ _ => none⟩).2.cell
      fr n = some v → 0 ≤ fr ∧ fr < 2 := by
    rw [exStored]
    intro fr n v
    simp [exFrameProg, Table.exec, Table.after, Table.forRows, Table.step, Table.write, Table.read,
      Table.put, Table.set, handedRow, meantFrame, FrameUse.op, List.range_succ]
    intro h
    repeat' split at h
    all_goals first | omega | cases h
  revert hval hout
  generalize (Table.exec false (storedNames exRanks) (exFrameProg (exVal 1000)) [] ⟨true, 0, exVal 5, fun _ _ => none⟩).2.cell = cell
  intro hval hout
  refine ⟨⟨exRanks_ok', exSameData, Or.inr rfl, exRanks_hold' 30, ?_, ?_, fun e => by cases e⟩, ?_, ?_⟩
  · exact .forEach (.append (.use _ _ (.use _ _ .done))) .done
  · simp [exCopyProg, FrameProg.Uses, FrameUse.op, NoLocalNames]
  · intro _ r hr e he l total h
    have hm := List.mem_map_of_mem (f := fun e => (e.1, e.2.1)) he
    rw [exRanks_kinds hr] at hm
    refine ⟨e, he, h, 0, ?_⟩
    simp only [List.mem_cons, List.not_mem_nil, or_false, Prod.mk.injEq] at hm
    rcases hm with hm | hm | hm <;> rw [hm.2] <;> exact ⟨_, (hval _ (by simp)).2⟩
  · intro nb hnb
    have : nb = 2 := by
      have h1 := hnb.1 1 "u" _ (hval _ (by simp)).1
      rcases hnb.2 with h | ⟨n, v, h⟩
      · omega
      · have := hout _ _ _ h; omega
    subst this
    have g1 := hval "T" (by simp)
    have g2 := hval "u" (by simp)
    have g3 := hval "p" (by simp)
    rw [exStored]
    refine ⟨?_, ?_⟩
    · simp [exCopyProg, FrameSession.table, Table.Fits, Table.FitsRows, Table.exec, Table.after, Table.step, Table.write,
        Table.read, Table.put, Table.set, handedRow, meantFrame, FrameUse.op, Table.ReadsFilled, Table.Filled, List.range_succ, g1, g2, g3]
    generalize hcell' : (Table.exec false _ _ _ _).2.cell = cell'
    simp [exCopyProg, FrameSession.table, Table.exec, Table.after, Table.forRows, Table.step, Table.write,
      Table.read, Table.put, Table.set, handedRow, meantFrame, FrameUse.op, List.range_succ, g1, g2, g3] at hcell'
    have hval' : ∀ n ∈ ["T", "u", "p"], ∃ v, cell' 3 n = some v := by
      rw [← hcell']
      simp
    have hout' : ∀ fr n v, cell' fr n = some v → 0 ≤ fr ∧ fr < 4 := by
      intro fr n v h
      rw [← hcell'] at h
      simp only at h
      repeat' split at h
      all_goals first | omega | (have := hout _ _ _ h; omega)
    refine ⟨⟨exRanks_ok, exSelf, Or.inl rfl, exRanks_hold 0, ?_, ?_, ?_⟩, (by simp), ?_⟩
    · exact .take _ (.attempt (.use _ _ .done) (.use _ _ .done))
    · simp [exLastProg, FrameProg.Uses, FrameUse.op, NoLocalNames, localNames, exRanks, exProc, exCollG, exCollL]
    · intro _
      simp only [exLastProg, FrameProg.Uses, FrameUse.op, RefusedBy, FirstNot, and_true]
      intro n hn
      cases hn
      exact exRanks_global
    · intro nb hnb'
      obtain ⟨v1, h1⟩ := hval' "T" (by simp)
      obtain ⟨v2, h2⟩ := hval' "u" (by simp)
      obtain ⟨v3, h3⟩ := hval' "p" (by simp)
      have : nb = 4 := by
        have h1 := hnb'.1 3 "u" _ h2
        rcases hnb'.2 with h | ⟨n, v, h⟩
        · omega
        · have := hout' _ _ _ h; omega
      subst this
      rw [exStored]
      refine ⟨?_, trivial⟩
      simp [exLastProg, FrameSession.table, Table.Fits, Table.exec, Table.after, Table.step, Table.write,
        Table.read, Table.put, Table.set, handedRow, meantFrame, FrameUse.op, Table.ReadsFilled, Table.Filled, h1, h2, h3]

/-- **C102** For programs that do not ask for `file[n]` of a file with `n` frames it does not matter which row that is, so that
`C102_programs_partial` with `late = true` is about all of them too. -/
theorem C102_late {V : Type} {known : List String} {p : FrameProg (String → V)} {t : Table V} (h : Table.Fits false known p [] t) :
    Table.Fits true known p [] t ∧ Table.exec true known p [] t = Table.exec false known p [] t :=
  exec_late p [] t h

/-- The program of the example. -/
example : Table.Fits true (storedNames exRanks) (exFrameProg (exVal 1000)) [] ⟨true, 0, exVal 5, fun _ _ => none⟩ :=
  (C102_late exFrame_fits).1

/-- For the program that asks for `file[0]` of a file without frames it does. -/
example : (Table.exec true (storedNames exRanks) exLateProg [] ⟨true, 0, exVal 5, fun _ _ => none⟩).1 = true ∧
    (Table.exec false (storedNames exRanks) exLateProg [] ⟨true, 0, exVal 5, fun _ _ => none⟩).1 = false := by
  rw [exStored]
  simp [exLateProg, Table.exec, Table.after, Table.step, Table.write, Table.read, Table.put, Table.set, handedRow, meantFrame,
    FrameUse.op]

/-- All three programs end as the table expects. -/
example :
    let r := createFrames .write (exRanks.map FileRank.colls) (fun _ _ => 77) (fun _ _ => 78) (exMem 5) (exFrameProg (exMem 1000))
    let t := Table.exec false (storedNames exRanks) (exFrameProg (exVal 1000)) [] ⟨true, 0, exVal 5, fun _ _ => none⟩
    r.1 = .ok () ∧ r.2.2.sess.nbFrames = 2 ∧ SessionsBehave false (storedNames exRanks) t.2.cell exSessions (runSessions r.2.1 exSessions) := by
  have h := C102_programs_partial exRanks_ok exNumbered (Or.inl rfl) (fun _ _ => 77) (fun _ _ => 78) (exRanks_hold 5) exFrame_same
    exFrame_names exFrame_fits exSessions_ok
  obtain ⟨h1, -, h3, h4⟩ := h
  have ht := exFrame_table
  dsimp only at ht
  rw [ht.1] at h1
  refine ⟨?_, h3.trans ht.2.1, h4⟩
  revert h1
  generalize (createFrames _ _ _ _ _ _).1 = q
  intro h1
  cases q with
  | ok u => rfl
  | throw e => exact absurd h1.2 (by decide)
  | ub => exact absurd h1 id

/-- The same as the model computes it. -/
example :
    let r := createFrames .write (exRanks.map FileRank.colls) (fun _ _ => 77) (fun _ _ => 78) (exMem 5) (exFrameProg (exMem 1000))
    let v := useFrames .append (exRanks'.map FileRank.colls) r.2.1 (exMem' 30) exCopyProg
    let q := useFrames .read (exRanks.map FileRank.colls) v.2.1 (exMem 0) exLastProg
    r.1 = .ok () ∧ r.2.2.sess.nbFrames = 2 ∧ v.1 = .ok () ∧ v.2.2.sess.nbFrames = 4 ∧ q.1 = .ok () ∧ q.2.2.sess.nbFrames = 4 ∧
      ((v.2.2.mem "p").map fun m => m.bufs.map fun b => [b 0, b 1]) = [[[some 1001, some 1011]]] ∧
      ((q.2.2.mem "p").map fun m => m.bufs.map fun b => [b 0, b 1]) = [[[some 6, some 16]], [[some 7, some 17]]] := by
  decide +kernel

end Verif.Props
