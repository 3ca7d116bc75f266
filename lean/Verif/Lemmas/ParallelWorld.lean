import Verif.Lemmas.ParallelSession
/-
Operations on a file object: the parallel build and the serial build.
-/
namespace Verif.NetCDF
open Verif Verif.RawMemory Verif.FileIO

section
variable {α : Type} {conv : Conv α}

theorem put_ty {x : SessVar} {nb frame : Int} {ws : List (StateData α)} {fv fv' : FileVar α}
    (h : x.put nb frame ws fv = .ok fv') : fv'.ty = fv.ty := by
  unfold SessVar.put at h
  split at h
  · exact writeLoop_ty (ws := ws) h
  · obtain ⟨rs, -, h⟩ := Res.bind_eq_ok.1 h
    exact writeRanks_ty h

theorem putPar_ok (hc : conv.Faithful) {x : SessVar} {nb frame : Int} {ws : List (StateData α)} {fv fv' : FileVar α}
    (hg : Good (sources ws) fv) (h : x.put nb frame ws fv = .ok fv') :
    ∃ us, x.putPar conv true false nb frame ws fv = (.ok us, false, fv') := by
  unfold SessVar.put at h
  unfold SessVar.putPar
  cases hx : x.hist with
  | some N =>
    rw [hx] at h
    exact ⟨_, putHist_ok hc hg (h : histLoop (writeLoop nb frame ws) _ fv = .ok fv')⟩
  | none =>
    rw [hx] at h
    obtain ⟨rs, h0, h⟩ := Res.bind_eq_ok.1 h
    dsimp only
    rw [h0]
    exact ⟨_, putCall_ok hc (good_of hg h0) h⟩

theorem putPar_fails (hc : conv.Faithful) {x : SessVar} {nb frame : Int} {ws : List (StateData α)} {fv : FileVar α}
    (hg : Good (sources ws) fv) {us : List Unit} (h : (x.putPar conv true false nb frame ws fv).1 = .ok us) :
    ∃ fv', x.put nb frame ws fv = .ok fv' := by
  unfold SessVar.putPar at h
  unfold SessVar.put
  cases hx : x.hist with
  | some N =>
    rw [hx] at h
    exact putHist_fails hc hg h
  | none =>
    rw [hx] at h
    dsimp only at h ⊢
    cases h0 : mapRes (fun w : StateData α => do let b ← at! w.bufs 0; pure (w.v, w.marks, b)) ws with
    | throw e => rw [h0] at h; cases h
    | ub => rw [h0] at h; cases h
    | ok rs =>
      rw [h0] at h
      rw [Res.ok_bind]
      exact putCall_fails hc (good_of hg h0) h

theorem putPar_quiet {x : SessVar} {nb frame : Int} {ws : List (StateData α)} {fv : FileVar α} (hq : Quiet ws) :
    x.putPar conv false false nb frame ws fv = x.putPar conv true false nb frame ws fv := by
  unfold SessVar.putPar
  cases x.hist with
  | some N => exact putHist_quiet hq
  | none =>
    dsimp only
    cases h0 : mapRes (fun w : StateData α => do let b ← at! w.bufs 0; pure (w.v, w.marks, b)) ws with
    | throw e => rfl
    | ub => rfl
    | ok rs => exact putCall_quiet (quiet_of hq h0)

theorem get1_hist {x : SessVar} {N : Nat} (hx : x.hist = some N) {nb frame numrecs : Int} {fv : FileVar α}
    {w : StateData α} {m : ProcMem α} : x.get1 nb frame numrecs fv w = .ok m ↔
      ∃ bs, histLoop (readLoop nb frame numrecs fv w) (List.range (N + 1)) w.bufs = .ok bs ∧ m = ⟨w.idx, bs⟩ := by
  unfold SessVar.get1
  rw [hx]
  constructor
  · intro h
    obtain ⟨bs, h1, h⟩ := Res.bind_eq_ok.1 h
    cases h
    exact ⟨bs, h1, rfl⟩
  · rintro ⟨bs, h1, rfl⟩
    exact Res.bind_eq_ok.2 ⟨bs, h1, rfl⟩

theorem get1_plain {x : SessVar} (hx : x.hist = none) {nb frame numrecs : Int} {fv : FileVar α}
    {w : StateData α} {m : ProcMem α} : x.get1 nb frame numrecs fv w = .ok m ↔
      ∃ r : (Var × List Int × Mem α) × Mem α, ((do let b ← at! w.bufs 0; pure (w.v, w.marks, b)) = Res.ok r.1 ∧
        r.1.1.read nb frame 0 r.1.2.1 numrecs fv r.1.2.2 = .ok r.2) ∧ m = ⟨w.idx, w.bufs.set 0 r.2⟩ := by
  unfold SessVar.get1
  rw [hx]
  constructor
  · intro h
    obtain ⟨b, h1, h⟩ := Res.bind_eq_ok.1 h
    obtain ⟨b', h2, h⟩ := Res.bind_eq_ok.1 h
    cases h
    exact ⟨((w.v, w.marks, b), b'), ⟨by rw [h1]; rfl, h2⟩, rfl⟩
  · rintro ⟨⟨r, b'⟩, ⟨h1, h2⟩, rfl⟩
    obtain ⟨b, e1, h1⟩ := Res.bind_eq_ok.1 h1
    cases h1
    exact Res.bind_eq_ok.2 ⟨b, e1, Res.bind_eq_ok.2 ⟨b', h2, rfl⟩⟩

theorem forall₂_zipWith {β γ δ : Type} {R : β → γ → Prop} {f : β → γ → δ} {l : List β} {r : List δ}
    (h : List.Forall₂ (fun x z => ∃ y, R x y ∧ z = f x y) l r) :
    ∃ m, List.Forall₂ R l m ∧ r = List.zipWith f l m := by
  induction h with
  | nil => exact ⟨[], .nil, rfl⟩
  | cons h1 _ ih =>
    obtain ⟨y, a, rfl⟩ := h1
    obtain ⟨m, c, rfl⟩ := ih
    exact ⟨y :: m, .cons a c, rfl⟩

theorem getPar_iff (hc : conv.Faithful) {x : SessVar} {nb frame numrecs : Int} {ws : List (StateData α)} {fv : FileVar α}
    (hg : Good (sources ws) fv) :
    (∀ ms, x.get nb frame numrecs ws fv = .ok ms → x.getPar conv false nb frame numrecs ws fv = (.ok ms, false)) ∧
      (∀ ms, (x.getPar conv false nb frame numrecs ws fv).1 = .ok ms → ∃ ms', x.get nb frame numrecs ws fv = .ok ms') := by
  unfold SessVar.get SessVar.getPar
  cases hx : x.hist with
  | some N =>
    constructor
    · intro ms h
      replace h := (mapRes_iff.1 h).imp fun w m h => (get1_hist hx).1 h
      obtain ⟨bss, h1, rfl⟩ := forall₂_zipWith h
      dsimp only
      rw [getHist_ok hc hg h1]
      dsimp only
      congr 2
      rw [List.map_zipWith]
    · intro ms h
      dsimp only at h
      rcases hp : getHist conv nb frame numrecs fv (List.range (N + 1)) false ws with ⟨j, i⟩
      rw [hp] at h
      cases j with
      | throw e => cases h
      | ub => cases h
      | apart => cases h
      | ok ws' =>
        obtain ⟨bss, h1⟩ := getHist_fails hc hg (congrArg Prod.fst hp)
        refine ⟨List.zipWith (fun w bs => ⟨w.idx, bs⟩) ws bss, mapRes_iff.2 ?_⟩
        clear hp h hg
        induction h1 with
        | nil => exact .nil
        | cons a _ ih => exact .cons ((get1_hist hx).2 ⟨_, a, rfl⟩) ih
  | none =>
    constructor
    · intro ms h
      replace h := (mapRes_iff.1 h).imp fun w m h => (get1_plain hx).1 h
      obtain ⟨m, h1, rfl⟩ := forall₂_zipWith h
      have h0 : mapRes (fun w : StateData α => do let b ← at! w.bufs 0; pure (w.v, w.marks, b)) ws = .ok (m.map Prod.fst) := by
        rw [mapRes_iff, List.forall₂_map_right_iff]
        exact h1.imp fun _ _ h => h.1
      have h2 : (getCall conv false nb frame 0 numrecs fv (m.map Prod.fst)).1 = .ok (m.map Prod.snd) := by
        rw [getCall_iff hc (good_of hg h0), List.forall₂_map_left_iff, List.forall₂_map_right_iff]
        clear h h0 hg
        induction h1 with
        | nil => exact .nil
        | cons a _ ih => exact .cons a.2 ih
      have hp : getCall conv false nb frame 0 numrecs fv (m.map Prod.fst) = (.ok (m.map Prod.snd), false) :=
        Prod.ext h2 (getCall_collective h2)
      dsimp only
      rw [h0]
      dsimp only
      rw [hp]
      dsimp only
      congr 2
      rw [List.zipWith_map_right]
    · intro ms h
      dsimp only at h
      cases h0 : mapRes (fun w : StateData α => do let b ← at! w.bufs 0; pure (w.v, w.marks, b)) ws with
      | throw e => rw [h0] at h; cases h
      | ub => rw [h0] at h; cases h
      | ok rs =>
        rw [h0] at h
        dsimp only at h
        rcases hp : getCall conv false nb frame 0 numrecs fv rs with ⟨j, i⟩
        rw [hp] at h
        cases j with
        | throw e => cases h
        | ub => cases h
        | apart => cases h
        | ok bs =>
          have h1 := (getCall_iff hc (good_of hg h0)).1 (congrArg Prod.fst hp)
          have h0' := mapRes_iff.1 h0
          refine ⟨List.zipWith (fun w b => ⟨w.idx, w.bufs.set 0 b⟩) ws bs, mapRes_iff.2 ?_⟩
          clear h hp h0 hg
          induction h0' generalizing bs with
          | nil => cases h1; exact .nil
          | cons a _ ih =>
            cases h1 with
            | cons b c => exact .cons ((get1_plain hx).2 ⟨(_, _), ⟨a, b⟩, rfl⟩) (ih _ c)

theorem sources_procData {vs : List Var} {ms : List (List Int)} {ps : List (ProcMem α)} :
    ∀ v ∈ sources (procData vs ms ps), v ∈ vs := by
  induction vs generalizing ms ps with
  | nil => intro v hv; cases hv
  | cons u us ih =>
    intro v hv
    cases ms with
    | nil => cases hv
    | cons m ms =>
      cases ps with
      | nil => cases hv
      | cons p ps =>
        simp only [procData, sources, List.map_cons, List.mem_cons] at hv
        rcases hv with rfl | hv
        · exact List.mem_cons_self ..
        · exact List.mem_cons_of_mem _ (ih v hv)

/-! ### Outcomes of both builds -/

/-- The parallel build does what the serial build does if that succeeds, and does not succeed if that fails. -/
def ParAgrees (r : Joint Unit × ParWorld α) (s : Res (World α)) : Prop :=
  (∀ w, s = .ok w → r = (.ok (), ⟨w, false⟩)) ∧ (r.1 = .ok () → ∃ w, s = .ok w)

theorem ParAgrees.next {r : Joint Unit × ParWorld α} {s : Res (World α)} {f : ParWorld α → Joint Unit × ParWorld α}
    {g : World α → Res (World α)} (h : ParAgrees r s) (hn : ∀ w, s = .ok w → ParAgrees (f ⟨w, false⟩) (g w)) :
    ParAgrees (Joint.next r f) (s.bind g) := by
  constructor
  · intro w hw
    obtain ⟨w1, h1, h2⟩ := Res.bind_eq_ok.1 hw
    rw [h.1 w1 h1]
    exact (hn w1 h1).1 w h2
  · intro hr
    rcases r with ⟨j, q⟩
    cases j with
    | throw e => cases hr
    | ub => cases hr
    | apart => cases hr
    | ok u =>
      obtain ⟨w1, h1⟩ := h.2 rfl
      cases h.1 w1 h1
      obtain ⟨w2, h2⟩ := (hn w1 h1).2 hr
      exact ⟨w2, Res.bind_eq_ok.2 ⟨w1, h1, h2⟩⟩

theorem agrees_throw {e : Err} {q : ParWorld α} : ParAgrees (.throw e, q) (.throw e) :=
  ⟨fun w h => (by cases h), fun h => (by cases h)⟩

theorem agrees_ok (w : World α) : ParAgrees (.ok (), ⟨w, false⟩) (.ok w) :=
  ⟨fun w h => (by cases h; rfl), fun _ => ⟨w, rfl⟩⟩

variable {convI : Conv Int}

theorem parRanks_global {β : Type} {nb frame : Int} {k : Nat} {ws : List (Var × Mem β)} {fv : FileVar β}
    (h : ∀ w ∈ ws, w.1.field.isGlobal = true) :
    Var.writeRanks nb frame k (ws.map fun w => (w.1, [], w.2)) fv = Var.writeAll nb frame k ws fv := by
  induction ws generalizing fv with
  | nil => rfl
  | cons w ws ih =>
    simp only [List.map_cons]
    rw [Var.writeRanks, Var.writeAll, Var.write, if_pos (h w (List.mem_cons_self ..))]
    cases w.1.writeGlobal nb frame k w.2 fv with
    | throw e => rfl
    | ub => rfl
    | ok fv' => exact ih fun w hw => h w (List.mem_cons_of_mem _ hw)

theorem zipWith_split {β : Type} (vs : List Var) (ms : List β) (f : β → Mem Int) :
    List.zipWith (fun v m => (v, ([] : List Int), f m)) vs ms =
      (List.zipWith (fun v m => (v, f m)) vs ms).map fun w => (w.1, [], w.2) := by
  rw [List.map_zipWith]

theorem zipWith_fst {β γ : Type} {f : β → γ} {vs : List Var} {ms : List β} {w : Var × γ}
    (h : w ∈ List.zipWith (fun v m => (v, f m)) vs ms) : w.1 ∈ vs := by
  induction vs generalizing ms with
  | nil => simp at h
  | cons v vs ih =>
    cases ms with
    | nil => simp at h
    | cons m ms =>
      rw [List.zipWith_cons_cons, List.mem_cons] at h
      rcases h with rfl | h
      · exact List.mem_cons_self ..
      · exact List.mem_cons_of_mem _ (ih h)

variable {w : World α}

/-- The hidden variable is that of a registered variable, or there is none. -/
def Used (s : Sess) (l : String) : Prop := (∃ x ∈ s.vars, x.localName = some l) ∨ s.hidden l = none

theorem putEntries_agrees (hc : convI.Faithful) (hr : ParWorld.Ready ⟨w, false⟩) (hm : w.sess.mode ≠ .read) {l : String}
    (hl : Used w.sess l) (frame : Int) :
    ParAgrees (ParWorld.putEntries convI l frame ⟨w, false⟩)
      ((w.sess.putEntries l frame w.file).bind fun f => .ok { w with file := f }) := by
  unfold ParWorld.putEntries Sess.putEntries
  dsimp only
  cases hh : w.sess.hidden l with
  | none => exact agrees_throw
  | some vs =>
    obtain ⟨x, hx, hxl⟩ := hl.resolve_right (by rw [hh]; simp)
    cases hf : w.file.hidden l with
    | none => exact agrees_throw
    | some fv =>
      dsimp only
      rw [if_neg hm, decide_eq_true (by exact hm), zipWith_split]
      have hv : ∀ u ∈ List.zipWith (fun v m => (v, entryBuf m)) vs (w.sess.marks l), u.1.field.isGlobal = true :=
        fun u hu => (hr.hidden x hx l hxl vs hh u.1 (zipWith_fst hu)).2
      have hg : Good (((List.zipWith (fun v m => (v, entryBuf m)) vs (w.sess.marks l)).map
          fun u => (u.1, ([] : List Int), u.2)).map Prod.fst) fv := by
        intro v hv
        rw [List.map_map] at hv
        obtain ⟨u, hu, rfl⟩ := List.mem_map.1 hv
        exact ⟨(hr.hidden x hx l hxl vs hh u.1 (zipWith_fst hu)).1, hr.hiddenTyped x hx l hxl vs hh fv hf u.1 (zipWith_fst hu)⟩
      have e := parRanks_global (nb := w.sess.nbFrames) (frame := frame) (k := 0) (fv := fv) hv
      constructor
      · intro w' h
        obtain ⟨f, h1, h2⟩ := Res.bind_eq_ok.1 h
        obtain ⟨fv', h3, h4⟩ := Res.bind_eq_ok.1 h1
        rw [← e] at h3
        rw [putCall_ok hc hg h3]
        cases h4; cases h2
        rfl
      · intro h
        rcases hp : putCall convI true false w.sess.nbFrames frame 0
          ((List.zipWith (fun v m => (v, entryBuf m)) vs (w.sess.marks l)).map fun u => (u.1, ([] : List Int), u.2)) fv with
          ⟨j, i, g⟩
        rw [hp] at h
        cases j with
        | throw e => cases h
        | ub => cases h
        | apart => cases h
        | ok us =>
          obtain ⟨fv', h'⟩ := putCall_fails hc hg (congrArg Prod.fst hp)
          rw [e] at h'
          rw [h']
          exact ⟨_, rfl⟩

theorem getEntries_agrees (hc : convI.Faithful) (hr : ParWorld.Ready ⟨w, false⟩) {l : String}
    (hl : Used w.sess l) (frame : Int) :
    ParAgrees (ParWorld.getEntries convI l frame ⟨w, false⟩)
      ((w.sess.getEntries l frame w.file).bind fun s => .ok { w with sess := s }) := by
  unfold ParWorld.getEntries Sess.getEntries
  dsimp only
  cases hh : w.sess.hidden l with
  | none => exact agrees_throw
  | some vs =>
    obtain ⟨x, hx, hxl⟩ := hl.resolve_right (by rw [hh]; simp)
    cases hf : w.file.hidden l with
    | none => exact agrees_throw
    | some fv =>
      dsimp only
      generalize hz : vs.zip (w.sess.marks l) = z
      have hz' : ∀ u ∈ z, u.1 ∈ vs := fun u hu => by rw [← hz] at hu; exact (List.of_mem_zip hu).1
      have hg : Good ((z.map fun vm => (vm.1, ([] : List Int), entryBuf vm.2)).map Prod.fst) fv := by
        intro v hv
        rw [List.map_map] at hv
        obtain ⟨u, hu, rfl⟩ := List.mem_map.1 hv
        exact ⟨(hr.hidden x hx l hxl vs hh u.1 (hz' u hu)).1, hr.hiddenTyped x hx l hxl vs hh fv hf u.1 (hz' u hu)⟩
      have key : ∀ {bs}, (getCall convI false w.sess.nbFrames frame 0 w.file.numrecs fv
          (z.map fun vm => (vm.1, ([] : List Int), entryBuf vm.2))).1 = .ok bs ↔
          List.Forall₂ (fun vm b => vm.1.readGlobal w.sess.nbFrames frame 0 w.file.numrecs fv (entryBuf vm.2) = .ok b) z bs := by
        intro bs
        rw [getCall_iff hc hg, List.forall₂_map_left_iff]
        have hgl : ∀ u ∈ z, u.1.field.isGlobal = true := fun u hu => (hr.hidden x hx l hxl vs hh u.1 (hz' u hu)).2
        clear hg hz' hz
        constructor
        · intro h
          induction h with
          | nil => exact .nil
          | cons a _ ih =>
            refine .cons ?_ (ih fun u hu => hgl u (List.mem_cons_of_mem _ hu))
            rwa [Var.read, if_pos (hgl _ (List.mem_cons_self ..))] at a
        · intro h
          induction h with
          | nil => exact .nil
          | cons a _ ih =>
            refine .cons ?_ (ih fun u hu => hgl u (List.mem_cons_of_mem _ hu))
            rwa [Var.read, if_pos (hgl _ (List.mem_cons_self ..))]
      constructor
      · intro w' h
        obtain ⟨s', h1, h2⟩ := Res.bind_eq_ok.1 h
        obtain ⟨ms, h3, h4⟩ := Res.bind_eq_ok.1 h1
        replace h3 := (mapRes_iff.1 h3).imp (S := fun vm m => ∃ b,
          vm.1.readGlobal w.sess.nbFrames frame 0 w.file.numrecs fv (entryBuf vm.2) = .ok b ∧
            entriesOf vm.2.length b = .ok m) fun vm m h => Res.bind_eq_ok.1 h
        have h5 : ∃ bs, List.Forall₂ (fun (vm : Var × List Int) b =>
            vm.1.readGlobal w.sess.nbFrames frame 0 w.file.numrecs fv (entryBuf vm.2) = .ok b) z bs ∧
            List.Forall₂ (fun (mb : (Var × List Int) × Mem Int) m => entriesOf mb.1.2.length mb.2 = .ok m) (z.zip bs) ms := by
          clear hg hz' hz key h h1 h4
          induction h3 with
          | nil => exact ⟨[], .nil, .nil⟩
          | cons a _ ih =>
            obtain ⟨b, a1, a2⟩ := a
            obtain ⟨bs, b1, b2⟩ := ih
            exact ⟨b :: bs, .cons a1 b1, .cons a2 b2⟩
        obtain ⟨bs, h6, h7⟩ := h5
        have h8 := key.2 h6
        have hp : getCall convI false w.sess.nbFrames frame 0 w.file.numrecs fv
          (z.map fun vm => (vm.1, ([] : List Int), entryBuf vm.2)) = (.ok bs, false) := Prod.ext h8 (getCall_collective h8)
        rw [hp]
        dsimp only
        rw [mapRes_iff.2 h7]
        cases h4; cases h2
        rfl
      · intro h
        rcases hp : getCall convI false w.sess.nbFrames frame 0 w.file.numrecs fv
          (z.map fun vm => (vm.1, ([] : List Int), entryBuf vm.2)) with ⟨j, i⟩
        rw [hp] at h
        cases j with
        | throw e => cases h
        | ub => cases h
        | apart => cases h
        | ok bs =>
          have h1 := key.1 (congrArg Prod.fst hp)
          dsimp only at h
          cases h2 : mapRes (fun mb : (Var × List Int) × Mem Int => entriesOf mb.1.2.length mb.2) (z.zip bs) with
          | throw e => rw [h2] at h; cases h
          | ub => rw [h2] at h; cases h
          | ok ms =>
            have h3 : mapRes (fun vm : Var × List Int => do
                let b ← vm.1.readGlobal w.sess.nbFrames frame 0 w.file.numrecs fv (entryBuf vm.2)
                entriesOf vm.2.length b) z = .ok ms := by
              replace h2 := mapRes_iff.1 h2
              rw [mapRes_iff]
              clear hg hz' hz key hp h
              induction h1 generalizing ms with
              | nil => cases h2; exact .nil
              | cons a _ ih =>
                cases h2 with
                | cons b c => exact .cons (Res.bind_eq_ok.2 ⟨_, a, b⟩) (ih _ c)
            rw [h3]
            exact ⟨_, rfl⟩

theorem good_vars (hr : ParWorld.Ready ⟨w, false⟩) {x : SessVar} (hx : x ∈ w.sess.vars) {fv : FileVar α}
    (hf : w.file.vars x.name = some fv) (ms : List (List Int)) (ps : List (ProcMem α)) :
    Good (sources (procData x.parts ms ps)) fv := fun v hv =>
  ⟨hr.vars x hx v (sources_procData v hv), hr.typed x hx fv hf v (sources_procData v hv)⟩

theorem putVar_agrees (hc : conv.Faithful) (hr : ParWorld.Ready ⟨w, false⟩) (hm : w.sess.mode ≠ .read) {x : SessVar}
    (hx : x ∈ w.sess.vars) (frame : Int) :
    ParAgrees (ParWorld.putVar conv x frame ⟨w, false⟩)
      ((w.sess.putVar w.mem x frame w.file).bind fun f => .ok { w with file := f }) := by
  unfold ParWorld.putVar Sess.putVar
  dsimp only
  cases hf : w.file.vars x.name with
  | none => exact agrees_throw
  | some fv =>
    dsimp only
    rw [if_neg hm, decide_eq_true (by exact hm)]
    simp only [if_neg hm]
    cases hfr : varFrame w.sess.nbFrames frame with
    | throw e => exact agrees_throw
    | ub => exact ⟨fun w h => (by cases h), fun h => (by cases h)⟩
    | ok fr =>
      dsimp only
      have hg := good_vars hr hx hf (w.sess.marksOf x) (w.mem x.name)
      constructor
      · intro w' h
        obtain ⟨f, h1, h2⟩ := Res.bind_eq_ok.1 h
        rw [Res.ok_bind] at h1
        obtain ⟨fv', h3, h4⟩ := Res.bind_eq_ok.1 h1
        obtain ⟨us, h5⟩ := putPar_ok hc hg h3
        rw [h5]
        cases h4; cases h2
        rfl
      · intro h
        rcases hp : x.putPar conv true false w.sess.nbFrames frame (procData x.parts (w.sess.marksOf x) (w.mem x.name)) fv with
          ⟨j, i, g⟩
        rw [hp] at h
        cases j with
        | throw e => cases h
        | ub => cases h
        | apart => cases h
        | ok us =>
          obtain ⟨fv', h'⟩ := putPar_fails hc hg (congrArg Prod.fst hp)
          rw [Res.ok_bind, h']
          exact ⟨_, rfl⟩

theorem quiet_procData {vs : List Var} {ms : List (List Int)} {ps : List (ProcMem α)} :
    ∀ d ∈ procData vs ms ps, d.v ∈ vs ∧ d.marks ∈ ms := by
  induction vs generalizing ms ps with
  | nil => intro v hv; cases hv
  | cons u us ih =>
    intro v hv
    cases ms with
    | nil => cases hv
    | cons m ms =>
      cases ps with
      | nil => cases hv
      | cons p ps =>
        simp only [procData, List.mem_cons] at hv
        rcases hv with rfl | hv
        · exact ⟨List.mem_cons_self .., List.mem_cons_self ..⟩
        · exact ⟨List.mem_cons_of_mem _ (ih _ hv).1, List.mem_cons_of_mem _ (ih _ hv).2⟩

/-- In a file opened for reading, a write that makes no request succeeds in both builds. -/
theorem putVar_read (hc : conv.Faithful) (hr : ParWorld.Ready ⟨w, false⟩) (hm : w.sess.mode = .read) {x : SessVar}
    (hx : x ∈ w.sess.vars) {frame : Int} {f : NcFile α} (h : w.sess.putVar w.mem x frame w.file = .ok f) :
    ParWorld.putVar conv x frame ⟨w, false⟩ = (.ok (), ⟨{ w with file := f }, false⟩) := by
  unfold Sess.putVar at h
  unfold ParWorld.putVar
  dsimp only
  cases hf : w.file.vars x.name with
  | none => rw [hf] at h; cases h
  | some fv =>
    rw [hf] at h
    dsimp only at h ⊢
    rw [if_pos hm] at h
    cases ha : w.sess.asksNothing x with
    | false => rw [ha] at h; cases h
    | true =>
      rw [ha, if_pos rfl] at h
      obtain ⟨fr, h1, h⟩ := Res.bind_eq_ok.1 h
      obtain ⟨fv', h2, h⟩ := Res.bind_eq_ok.1 h
      cases h
      have hg := good_vars hr hx hf (w.sess.marksOf x) (w.mem x.name)
      obtain ⟨us, h5⟩ := putPar_ok hc hg h2
      rw [h1]
      dsimp only
      simp only [Sess.asksNothing, Bool.and_eq_true, List.all_eq_true, decide_eq_true_eq] at ha
      have hq : Quiet (procData x.parts (w.sess.marksOf x) (w.mem x.name)) := fun d hd =>
        ⟨hr.locals x hx (fun e => by rw [e] at ha; cases ha.1) d.v (quiet_procData d hd).1,
          ha.2 d.marks (quiet_procData d hd).2⟩
      rw [decide_eq_false (by simp [hm]), putPar_quiet hq, h5]
      dsimp only
      rw [if_pos hm]

theorem getVar_agrees (hc : conv.Faithful) (hr : ParWorld.Ready ⟨w, false⟩) {x : SessVar} (hx : x ∈ w.sess.vars)
    (frame : Int) :
    ParAgrees (ParWorld.getVar conv x frame ⟨w, false⟩)
      ((w.sess.getVar w.file x frame w.mem).bind fun m => .ok { w with mem := m }) := by
  unfold ParWorld.getVar Sess.getVar
  dsimp only
  cases hf : w.file.vars x.name with
  | none => exact agrees_throw
  | some fv =>
    dsimp only
    have hg := good_vars hr hx hf (w.sess.marksOf x) (w.mem x.name)
    obtain ⟨k1, k2⟩ := getPar_iff hc (x := x) (nb := w.sess.nbFrames) (frame := frame) (numrecs := w.file.numrecs) hg
    constructor
    · intro w' h
      obtain ⟨f, h1, h2⟩ := Res.bind_eq_ok.1 h
      obtain ⟨ms, h3, h4⟩ := Res.bind_eq_ok.1 h1
      rw [k1 ms h3]
      cases h4; cases h2
      rfl
    · intro h
      rcases hp : x.getPar conv false w.sess.nbFrames frame w.file.numrecs
        (procData x.parts (w.sess.marksOf x) (w.mem x.name)) fv with ⟨j, i⟩
      rw [hp] at h
      cases j with
      | throw e => cases h
      | ub => cases h
      | apart => cases h
      | ok us =>
        obtain ⟨ms', h'⟩ := k2 us (congrArg Prod.fst hp)
        rw [h']
        exact ⟨_, rfl⟩

end
end Verif.NetCDF
