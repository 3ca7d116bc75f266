import Verif.Props.ParallelSession
/-
Calls that are refused, in the parallel build: the same exception on all processes, and the file stays in the collective mode.
-/
namespace Verif.Props
open Verif Verif.Ccoord Verif.Layout Verif.Layout.FieldLayout Verif.RawMemory Verif.FileIO Verif.NetCDF

variable {α : Type} {conv : Conv α} {convI : Conv Int}

/-! ### Transfers -/

theorem putParts_refused {writable : Bool} {nb frame : Int} {k : Nat} {ws : List (Var × List Int × Mem α)} {fv : FileVar α} {e : Err}
    (h : ∀ u ∈ ws, u.1.putPart conv writable false nb frame k u.2.1 u.2.2 fv = .throw e) :
    putParts conv writable false nb frame k ws fv = (ws.map fun _ => .throw e, fv) := by
  induction ws with
  | nil => rfl
  | cons u ws ih =>
    obtain ⟨v, m, b⟩ := u
    have h1 := h (v, m, b) (List.mem_cons_self ..)
    dsimp only at h1
    rw [putParts, h1]
    dsimp only
    rw [ih fun u hu => h u (List.mem_cons_of_mem _ hu)]
    rfl

theorem putCall_refused {writable : Bool} {nb frame : Int} {k : Nat} {ws : List (Var × List Int × Mem α)} {fv : FileVar α} {e : Err}
    (hne : ws ≠ []) (h : ∀ u ∈ ws, u.1.putPart conv writable false nb frame k u.2.1 u.2.2 fv = .throw e)
    (hs : ∀ u ∈ ws, u.1.switches false nb frame k u.2.1 = false) :
    putCall conv writable false nb frame k ws fv = (.throw e, false, fv) := by
  unfold putCall
  dsimp only
  rw [putParts_refused h, jointly_throws (by simpa using hne) (e := e) (by simp)]
  have : (ws.any fun w => w.1.switches false nb frame k w.2.1) = false := by
    rw [List.any_eq_false]
    intro u hu
    rw [hs u hu]
    simp
  rw [this]
  rfl

theorem getCall_refused {nb frame : Int} {k : Nat} {numrecs : Int} {ws : List (Var × List Int × Mem α)} {fv : FileVar α} {e : Err}
    (hne : ws ≠ []) (h : ∀ u ∈ ws, u.1.getPart conv false nb frame k u.2.1 numrecs fv u.2.2 = .throw e)
    (hs : ∀ u ∈ ws, u.1.switches true nb frame k u.2.1 = false) :
    getCall conv false nb frame k numrecs fv ws = (.throw e, false) := by
  unfold getCall
  dsimp only
  rw [jointly_throws (by simpa using hne) (e := e) (fun r hr => by
    obtain ⟨w, hw, rfl⟩ := List.mem_map.1 hr
    exact h w hw)]
  have : (ws.any fun w => w.1.switches true nb frame k w.2.1) = false := by
    rw [List.any_eq_false]
    intro u hu
    rw [hs u hu]
    simp
  rw [this]
  rfl

theorem write_throw {v : Var} {nb frame : Int} (h : varFrame nb frame = .throw .fileIOError) (k : Nat) (marks : List Int)
    (fv : FileVar α) (b : Mem α) : v.write nb frame k marks b fv = .throw .fileIOError := by
  unfold Var.write
  split
  · refine varFrame_throw h _ fun f hf => ?_
    rw [Var.startGlobal, if_pos hf, Res.throw_bind]
  · refine varFrame_throw h _ fun f hf => ?_
    rw [Var.startLocal, if_pos hf, Res.throw_bind]

/-- The frame is refused at once, on whichever process, or the field is global. -/
theorem switches_not {nb frame : Int} {k : Nat} {v : Var} {marks : List Int}
    (h : v.field.isGlobal = true ∨ (varFrame nb frame = .throw .fileIOError ∧ -nb ≤ frame ∧ 0 ≤ nb)) :
    v.switches true nb frame k marks = false := by
  unfold Var.switches
  rcases h with h | ⟨h1, h2, h3⟩
  · rw [h]; rfl
  · have : handleFrame frame nb = .throw .fileIOError := by
      cases hh : handleFrame frame nb with
      | throw e => rw [varFrame, hh] at h1; exact h1
      | ub => rw [varFrame, hh] at h1; cases h1
      | ok f =>
        rw [varFrame, hh, Res.ok_bind] at h1
        have h4 : 0 ≤ f := by
          unfold handleFrame at hh
          dsimp only at hh
          by_cases h5 : frame < 0
          · rw [if_pos h5] at hh
            split at hh
            · cases hh
            · cases hh; omega
          · rw [if_neg h5] at hh
            split at hh
            · cases hh
            · cases hh; omega
        rw [if_neg (by omega)] at h1
        cases h1
    rw [this]
    simp

/-! ### The hidden variables -/

section
variable {w : World α}

theorem putEntries_refused (hcI : convI.Faithful) (hr : ParWorld.Ready ⟨w, false⟩) (hm : w.sess.mode ≠ .read) {l : String}
    (hl : Used w.sess l) {frame : Int} (hv : varFrame w.sess.nbFrames frame = .throw .fileIOError) {e : Err}
    (h : w.sess.putEntries l frame w.file = .throw e) :
    e = .fileIOError ∧ ParWorld.putEntries convI l frame ⟨w, false⟩ = (.throw .fileIOError, ⟨w, false⟩) := by
  unfold Sess.putEntries at h
  unfold ParWorld.putEntries
  dsimp only
  cases hh : w.sess.hidden l with
  | none => rw [hh] at h; cases h; exact ⟨rfl, rfl⟩
  | some vs =>
    obtain ⟨x, hx, hxl⟩ := hl.resolve_right (by rw [hh]; simp)
    rw [hh] at h
    cases hf : w.file.hidden l with
    | none => rw [hf] at h; cases h; exact ⟨rfl, rfl⟩
    | some fv =>
      rw [hf] at h
      dsimp only at h ⊢
      rw [if_neg hm] at h
      rw [decide_eq_true (by exact hm), zipWith_split]
      generalize hz : List.zipWith (fun v m => (v, entryBuf m)) vs (w.sess.marks l) = z at h ⊢
      have hz' : ∀ u ∈ z, u.1 ∈ vs := fun u hu => by rw [← hz] at hu; exact zipWith_fst hu
      cases z with
      | nil => cases h
      | cons a z =>
        have hthrow : ∀ u ∈ a :: z, ∀ fv' : FileVar Int, u.1.writeGlobal w.sess.nbFrames frame 0 u.2 fv' = .throw .fileIOError := by
          intro u _ fv'
          refine varFrame_throw hv _ fun f hf => ?_
          rw [Var.startGlobal, if_pos hf, Res.throw_bind]
        have he : e = .fileIOError := by
          obtain ⟨v, b⟩ := a
          rw [Var.writeAll, hthrow (v, b) (List.mem_cons_self ..)] at h
          cases h
          rfl
        refine ⟨he, ?_⟩
        rw [putCall_refused (e := .fileIOError) (by simp) ?_ ?_]
        · intro u hu
          obtain ⟨u', hu', rfl⟩ := List.mem_map.1 hu
          have hv' := hr.hidden x hx l hxl vs hh u'.1 (hz' u' hu')
          dsimp only
          rw [putPart_same hcI hv'.1 _ _ _ _ _ (hr.hiddenTyped x hx l hxl vs hh fv hf u'.1 (hz' u' hu'))]
          exact write_throw hv _ _ _ _
        · intro u hu
          obtain ⟨u', hu', rfl⟩ := List.mem_map.1 hu
          have hv' := hr.hidden x hx l hxl vs hh u'.1 (hz' u' hu')
          unfold Var.switches
          dsimp only
          rw [hv'.2]
          rfl

theorem getEntries_refused (hcI : convI.Faithful) (hr : ParWorld.Ready ⟨w, false⟩) {l : String}
    (hl : Used w.sess l) {frame : Int} (hv : varFrame w.sess.nbFrames frame = .throw .fileIOError) {e : Err}
    (h : w.sess.getEntries l frame w.file = .throw e) :
    e = .fileIOError ∧ ParWorld.getEntries convI l frame ⟨w, false⟩ = (.throw .fileIOError, ⟨w, false⟩) := by
  unfold Sess.getEntries at h
  unfold ParWorld.getEntries
  dsimp only
  cases hh : w.sess.hidden l with
  | none => rw [hh] at h; cases h; exact ⟨rfl, rfl⟩
  | some vs =>
    obtain ⟨x, hx, hxl⟩ := hl.resolve_right (by rw [hh]; simp)
    rw [hh] at h
    cases hf : w.file.hidden l with
    | none => rw [hf] at h; cases h; exact ⟨rfl, rfl⟩
    | some fv =>
      rw [hf] at h
      dsimp only at h ⊢
      generalize hz : vs.zip (w.sess.marks l) = z at h ⊢
      have hz' : ∀ u ∈ z, u.1 ∈ vs := fun u hu => by rw [← hz] at hu; exact (List.of_mem_zip hu).1
      cases z with
      | nil => cases h
      | cons a z =>
        have he : e = .fileIOError := by
          have h1 : a.1.readGlobal w.sess.nbFrames frame 0 w.file.numrecs fv (entryBuf a.2) = .throw .fileIOError := by
            refine varFrame_throw hv _ fun f hf => ?_
            rw [Var.startGlobal, if_pos hf, Res.throw_bind]
          simp only [mapRes, h1, Res.throw_bind] at h
          cases h
          rfl
        refine ⟨he, ?_⟩
        rw [getCall_refused (e := .fileIOError) (by simp) ?_ ?_]
        · intro u hu
          obtain ⟨u', hu', rfl⟩ := List.mem_map.1 hu
          have hv' := hr.hidden x hx l hxl vs hh u'.1 (hz' u' hu')
          dsimp only
          rw [getPart_same hcI hv'.1 _ _ _ _ _ _ (hr.hiddenTyped x hx l hxl vs hh fv hf u'.1 (hz' u' hu'))]
          exact read_throw hv _ _ _ _ _
        · intro u hu
          obtain ⟨u', hu', rfl⟩ := List.mem_map.1 hu
          exact switches_not (.inl (hr.hidden x hx l hxl vs hh u'.1 (hz' u' hu')).2)

/-! ### The variables -/

theorem putVar_refused {x : SessVar} {frame : Int} (hv : varFrame w.sess.nbFrames frame = .throw .fileIOError) :
    ParWorld.putVar conv x frame ⟨w, false⟩ = (.throw .fileIOError, ⟨w, false⟩) := by
  unfold ParWorld.putVar
  dsimp only
  cases w.file.vars x.name with
  | none => rfl
  | some fv => dsimp only; rw [hv]

/-- The memory of the field is there if it can be written. -/
theorem put_bufs {x : SessVar} {nb frame : Int} {ws : List (StateData α)} {fv fv' : FileVar α} (h : x.put nb frame ws fv = .ok fv') :
    (x.hist = none → ∃ rs, mapRes (fun w : StateData α => do let b ← at! w.bufs 0; pure (w.v, w.marks, b)) ws = .ok rs) ∧
      (∀ N, x.hist = some N →
        ∃ rs, mapRes (fun w : StateData α => do let b ← stateBuf w.idx w.bufs 0; pure (w.v, w.marks, b)) ws = .ok rs) := by
  unfold SessVar.put at h
  cases hx : x.hist with
  | none =>
    rw [hx] at h
    obtain ⟨rs, h1, -⟩ := Res.bind_eq_ok.1 h
    exact ⟨fun _ => ⟨rs, h1⟩, fun N hN => (by cases hN)⟩
  | some N =>
    rw [hx] at h
    refine ⟨fun hN => (by cases hN), fun N' hN => ?_⟩
    dsimp only at h
    rw [writeState, List.range_succ_eq_map, histLoop] at h
    obtain ⟨s, h1, -⟩ := Res.bind_eq_ok.1 h
    obtain ⟨rs, h2, -⟩ := Res.bind_eq_ok.1 h1
    exact ⟨rs, h2⟩

theorem mapRes_fields {ws : List (StateData α)} {g : StateData α → Res (Mem α)} {rs : List (Var × List Int × Mem α)}
    (h : mapRes (fun w : StateData α => do let b ← g w; pure (w.v, w.marks, b)) ws = .ok rs) :
    (ws ≠ [] → rs ≠ []) ∧ ∀ u ∈ rs, u.1 ∈ sources ws := by
  replace h := mapRes_iff.1 h
  induction h with
  | nil => exact ⟨fun h => absurd rfl h, fun u hu => (by cases hu)⟩
  | @cons w u ws us h1 _ ih =>
    refine ⟨fun _ => by simp, fun u' hu' => ?_⟩
    rcases List.mem_cons.1 hu' with rfl | hu'
    · obtain ⟨b, -, h2⟩ := Res.bind_eq_ok.1 h1
      cases h2
      simp [sources]
    · have := ih.2 u' hu'
      simp only [sources, List.map_cons, List.mem_cons] at this ⊢
      exact .inr this

/-- A global variable is not written to a file opened for reading. -/
theorem putPar_readOnly {x : SessVar} {nb frame nb' frame' : Int} {ws : List (StateData α)} {fv fv' : FileVar α} (hne : ws ≠ [])
    (hg : ∀ v ∈ sources ws, v.field.isGlobal = true) (h : x.put nb' frame' ws fv = .ok fv') :
    x.putPar conv false false nb frame ws fv = (.throw .fileIOError, false, fv) := by
  obtain ⟨h1, h2⟩ := put_bufs h
  have key : ∀ {k : Nat} {g : StateData α → Res (Mem α)} {rs}, mapRes (fun w : StateData α => do let b ← g w; pure (w.v, w.marks, b)) ws = .ok rs →
      putCall conv false false nb frame k rs fv = (.throw .fileIOError, false, fv) := by
    intro k g rs hrs
    obtain ⟨k1, k2⟩ := mapRes_fields hrs
    refine putCall_refused (k1 hne) (fun u hu => ?_) fun u hu => ?_
    · rw [Var.putPart, if_pos (hg _ (k2 u hu))]; rfl
    · unfold Var.switches
      rw [hg _ (k2 u hu)]
      rfl
  unfold SessVar.putPar
  cases hx : x.hist with
  | none =>
    obtain ⟨rs, hrs⟩ := h1 hx
    dsimp only
    rw [hrs]
    exact key hrs
  | some N =>
    obtain ⟨rs, hrs⟩ := h2 N hx
    dsimp only
    rw [List.range_succ_eq_map, putHist, hrs]
    dsimp only
    rw [key hrs]

/-- A frame that does not exist is not read. -/
theorem getPar_refused (hc : conv.Faithful) {x : SessVar} {nb frame numrecs nb' frame' : Int} {ws : List (StateData α)} {fv fv' : FileVar α}
    (hne : ws ≠ []) (hg : Good (sources ws) fv) (h : x.put nb' frame' ws fv = .ok fv')
    (hv : varFrame nb frame = .throw .fileIOError)
    (hs : (∀ v ∈ sources ws, v.field.isGlobal = true) ∨ (-nb ≤ frame ∧ 0 ≤ nb)) :
    x.getPar conv false nb frame numrecs ws fv = (.throw .fileIOError, false) := by
  obtain ⟨h1, h2⟩ := put_bufs h
  have key : ∀ {k : Nat} {rs : List (Var × List Int × Mem α)}, rs ≠ [] → (∀ u ∈ rs, u.1 ∈ sources ws) →
      getCall conv false nb frame k numrecs fv rs = (.throw .fileIOError, false) := by
    intro k rs k1 k2
    refine getCall_refused k1 (fun u hu => ?_) fun u hu => ?_
    · rw [getPart_same hc (hg _ (k2 u hu)).1 _ _ _ _ _ _ (hg _ (k2 u hu)).2]
      exact read_throw hv _ _ _ _ _
    · exact switches_not (hs.imp (fun hs => hs _ (k2 u hu)) fun hs => ⟨hv, hs.1, hs.2⟩)
  unfold SessVar.getPar
  cases hx : x.hist with
  | none =>
    obtain ⟨rs, hrs⟩ := h1 hx
    dsimp only
    rw [hrs]
    dsimp only
    rw [key ((mapRes_fields hrs).1 hne) (mapRes_fields hrs).2]
  | some N =>
    obtain ⟨rs, hrs⟩ := h2 N hx
    have hslot : ∃ qs, mapRes (StateData.slot 0) ws = .ok qs ∧ (ws ≠ [] → qs ≠ []) ∧ ∀ q ∈ qs, q.1.v ∈ sources ws := by
      replace hrs := mapRes_iff.1 hrs
      clear hne hg h hs h1 h2 key
      induction hrs with
      | nil => exact ⟨[], rfl, fun h => absurd rfl h, fun q hq => (by cases hq)⟩
      | @cons w u ws us a _ ih =>
        obtain ⟨qs, q1, -, q3⟩ := ih
        obtain ⟨b, a1, -⟩ := Res.bind_eq_ok.1 a
        obtain ⟨j, a2, a3⟩ := Res.bind_eq_ok.1 a1
        have e : StateData.slot 0 w = .ok (w, j, b) := by
          unfold StateData.slot
          rw [a2, Res.ok_bind, a3]
          rfl
        refine ⟨(w, j, b) :: qs, ?_, fun _ => by simp, fun q hq => ?_⟩
        · rw [mapRes, e, Res.ok_bind, q1]
          rfl
        · rcases List.mem_cons.1 hq with rfl | hq
          · simp [sources]
          · have := q3 q hq
            simp only [sources, List.map_cons, List.mem_cons] at this ⊢
            exact .inr this
    obtain ⟨qs, q1, q2, q3⟩ := hslot
    dsimp only
    rw [List.range_succ_eq_map, getHist, q1]
    dsimp only
    rw [key (by simpa using q2 hne) (fun u hu => by
      obtain ⟨q, hq, rfl⟩ := List.mem_map.1 hu
      exact q3 q hq)]

/-! ### Loops -/

/-- The state after `write`. -/
def wrote (frame : Int) (ns : List String) (w : World α) : World α :=
  { w with sess := (writeNames w.mem frame ns (w.sess, w.file)).2.1, file := (writeNames w.mem frame ns (w.sess, w.file)).2.2 }

/-- The state after `read`. -/
def gotten (frame : Int) (ns : List String) (w : World α) : World α :=
  { w with sess := (readNames w.file frame ns (w.sess, w.mem)).2.1, mem := (readNames w.file frame ns (w.sess, w.mem)).2.2 }

theorem writeNames_cons (frame : Int) (n : String) (ns : List String) (w : World α) :
    ((writeNames w.mem frame [n] (w.sess, w.file)).1 = .ok () →
      (writeNames w.mem frame (n :: ns) (w.sess, w.file)).1 =
          (writeNames (wrote frame [n] w).mem frame ns ((wrote frame [n] w).sess, (wrote frame [n] w).file)).1 ∧
        wrote frame (n :: ns) w = wrote frame ns (wrote frame [n] w)) ∧
    ((writeNames w.mem frame [n] (w.sess, w.file)).1 ≠ .ok () →
      (writeNames w.mem frame (n :: ns) (w.sess, w.file)).1 = (writeNames w.mem frame [n] (w.sess, w.file)).1 ∧
        wrote frame (n :: ns) w = wrote frame [n] w) := by
  unfold wrote
  simp only [writeNames]
  cases w.sess.find n with
  | none =>
    dsimp only
    cases w.sess.putEntries n frame w.file with
    | ok f => exact ⟨fun _ => ⟨rfl, rfl⟩, fun h => absurd rfl h⟩
    | throw e => exact ⟨fun h => (by cases h), fun _ => ⟨rfl, rfl⟩⟩
    | ub => exact ⟨fun h => (by cases h), fun _ => ⟨rfl, rfl⟩⟩
  | some x =>
    dsimp only
    cases w.sess.entriesForWrite x frame w.file with
    | throw e => exact ⟨fun h => (by cases h), fun _ => ⟨rfl, rfl⟩⟩
    | ub => exact ⟨fun h => (by cases h), fun _ => ⟨rfl, rfl⟩⟩
    | ok st =>
      dsimp only
      cases st.1.putVar w.mem x frame st.2 with
      | ok f => exact ⟨fun _ => ⟨rfl, rfl⟩, fun h => absurd rfl h⟩
      | throw e => exact ⟨fun h => (by cases h), fun _ => ⟨rfl, rfl⟩⟩
      | ub => exact ⟨fun h => (by cases h), fun _ => ⟨rfl, rfl⟩⟩

theorem readNames_cons (frame : Int) (n : String) (ns : List String) (w : World α) :
    ((readNames w.file frame [n] (w.sess, w.mem)).1 = .ok () →
      (readNames w.file frame (n :: ns) (w.sess, w.mem)).1 =
          (readNames (gotten frame [n] w).file frame ns ((gotten frame [n] w).sess, (gotten frame [n] w).mem)).1 ∧
        gotten frame (n :: ns) w = gotten frame ns (gotten frame [n] w)) ∧
    ((readNames w.file frame [n] (w.sess, w.mem)).1 ≠ .ok () →
      (readNames w.file frame (n :: ns) (w.sess, w.mem)).1 = (readNames w.file frame [n] (w.sess, w.mem)).1 ∧
        gotten frame (n :: ns) w = gotten frame [n] w) := by
  unfold gotten
  simp only [readNames]
  cases w.sess.find n with
  | none =>
    dsimp only
    cases w.sess.getEntries n frame w.file with
    | ok f => exact ⟨fun _ => ⟨rfl, rfl⟩, fun h => absurd rfl h⟩
    | throw e => exact ⟨fun h => (by cases h), fun _ => ⟨rfl, rfl⟩⟩
    | ub => exact ⟨fun h => (by cases h), fun _ => ⟨rfl, rfl⟩⟩
  | some x =>
    dsimp only
    cases w.sess.entriesForRead x w.file with
    | throw e => exact ⟨fun h => (by cases h), fun _ => ⟨rfl, rfl⟩⟩
    | ub => exact ⟨fun h => (by cases h), fun _ => ⟨rfl, rfl⟩⟩
    | ok st =>
      dsimp only
      cases st.getVar w.file x frame w.mem with
      | ok f => exact ⟨fun _ => ⟨rfl, rfl⟩, fun h => absurd rfl h⟩
      | throw e => exact ⟨fun h => (by cases h), fun _ => ⟨rfl, rfl⟩⟩
      | ub => exact ⟨fun h => (by cases h), fun _ => ⟨rfl, rfl⟩⟩

theorem next_ok (r : Joint Unit × ParWorld α) (f : ParWorld α → Joint Unit × ParWorld α) :
    Joint.next r f = Joint.next (Joint.next r fun q => (.ok (), q)) f := by
  rcases r with ⟨j, q⟩
  cases j <;> rfl

theorem par_writeNames_cons (frame : Int) (n : String) (ns : List String) (p : ParWorld α) :
    ParWorld.writeNames conv convI frame (n :: ns) p =
      Joint.next (ParWorld.writeNames conv convI frame [n] p) (ParWorld.writeNames conv convI frame ns) := by
  simp only [ParWorld.writeNames]
  exact next_ok _ _

theorem par_readNames_cons (frame : Int) (n : String) (ns : List String) (p : ParWorld α) :
    ParWorld.readNames conv convI frame (n :: ns) p =
      Joint.next (ParWorld.readNames conv convI frame [n] p) (ParWorld.readNames conv convI frame ns) := by
  simp only [ParWorld.readNames]
  exact next_ok _ _

/-- One name keeps the variables and their types, also if it is refused. -/
theorem wrote_keeps1 (frame : Int) (n : String) (w : World α) : ParKeeps w (wrote frame [n] w) := by
  unfold wrote
  simp only [writeNames]
  cases w.sess.find n with
  | none =>
    dsimp only
    cases h : w.sess.putEntries n frame w.file with
    | ok f => exact putEntries_keeps h
    | throw e => exact ParKeeps.refl w
    | ub => exact ParKeeps.refl w
  | some x =>
    dsimp only
    cases h : w.sess.entriesForWrite x frame w.file with
    | throw e => exact ParKeeps.refl w
    | ub => exact ParKeeps.refl w
    | ok st =>
      have k : ParKeeps w { w with sess := st.1, file := st.2 } :=
        entriesW_keeps (x := x) (frame := frame) (by unfold World.entriesW; rw [h]; rfl)
      dsimp only
      cases h' : st.1.putVar w.mem x frame st.2 with
      | ok f => exact k.trans (putVar_keeps (w := { w with sess := st.1, file := st.2 }) h')
      | throw e => exact k
      | ub => exact k

theorem gotten_keeps1 (frame : Int) (n : String) (w : World α) : ParKeeps w (gotten frame [n] w) := by
  unfold gotten
  simp only [readNames]
  cases w.sess.find n with
  | none =>
    dsimp only
    cases h : w.sess.getEntries n frame w.file with
    | ok f => exact getEntries_keeps h
    | throw e => exact ParKeeps.refl w
    | ub => exact ParKeeps.refl w
  | some x =>
    dsimp only
    cases h : w.sess.entriesForRead x w.file with
    | throw e => exact ParKeeps.refl w
    | ub => exact ParKeeps.refl w
    | ok st =>
      have k : ParKeeps w { w with sess := st } :=
        entriesR_keeps (x := x) (by unfold World.entriesR; rw [h]; rfl)
      dsimp only
      cases h' : st.getVar w.file x frame w.mem with
      | ok f => exact k.trans (keeps_mem _ _)
      | throw e => exact k
      | ub => exact k

theorem wrote_keeps (frame : Int) (ns : List String) (w : World α) : ParKeeps w (wrote frame ns w) := by
  induction ns generalizing w with
  | nil => exact ParKeeps.refl w
  | cons n ns ih =>
    obtain ⟨a, b⟩ := writeNames_cons frame n ns w
    by_cases h : (writeNames w.mem frame [n] (w.sess, w.file)).1 = .ok ()
    · rw [(a h).2]; exact (wrote_keeps1 frame n w).trans (ih _)
    · rw [(b h).2]; exact wrote_keeps1 frame n w

theorem gotten_keeps (frame : Int) (ns : List String) (w : World α) : ParKeeps w (gotten frame ns w) := by
  induction ns generalizing w with
  | nil => exact ParKeeps.refl w
  | cons n ns ih =>
    obtain ⟨a, b⟩ := readNames_cons frame n ns w
    by_cases h : (readNames w.file frame [n] (w.sess, w.mem)).1 = .ok ()
    · rw [(a h).2]; exact (gotten_keeps1 frame n w).trans (ih _)
    · rw [(b h).2]; exact gotten_keeps1 frame n w

end

/-! ### Calls -/

section
variable {D : FileDesc} {P : Program} {vars : List SessVar} {hidden : String → Option (List Var)} {mode : OpenMode}
  {I : Sess → NcFile α → (String → Prop) → Prop} {w : World α} {t : Table (Values α)}

/-- The state of a program in the serial build that agrees with the table and is ready for the parallel build. -/
structure BothReady (D : FileDesc) (P : Program) (vars : List SessVar) (hidden : String → Option (List Var)) (mode : OpenMode)
    (I : Sess → NcFile α → (String → Prop) → Prop) (w : World α) (t : Table (Values α)) : Prop where
  inv : SessInv (relations D P) vars hidden mode I w.sess w.file t
  holds : ∀ x ∈ vars, VarHolds P x (w.mem x.name) (t.cur x.name)
  ready : ParWorld.Ready ⟨w, false⟩

/-- The same in both builds. -/
def SameInBoth (r : Joint Unit × ParWorld α) (o : Res Unit) (w : World α) : Prop := r = (together o, ⟨w, false⟩)

theorem SameInBoth.next {r : Joint Unit × ParWorld α} {o : Res Unit} {w : World α} (h : SameInBoth r o w) (ho : o ≠ .ok ())
    (f : ParWorld α → Joint Unit × ParWorld α) : SameInBoth (Joint.next r f) o w := by
  rw [SameInBoth] at h ⊢
  rw [h]
  cases o with
  | ok u => exact absurd rfl ho
  | throw e => rfl
  | ub => rfl

theorem procData_ne (hreg : Registered D P vars hidden) {x : SessVar} (hx : x ∈ vars) {ms : List (ProcMem α)} {val : Values α}
    (hm : VarHolds P x ms val) : procData x.parts (marksFor D P x) ms ≠ [] := by
  intro h
  have hr := (hreg.reads x hx).alloc (α := α) hm
  have hb := (hreg.reads x hx).bad (nb := 0) (frame := 0) (numrecs := 0) (fv := ⟨[], .double, fun _ => val 0 [] 0 []⟩) hr (by rfl)
  rw [h] at hb
  cases hb

theorem expected_ok {r : Res Unit} (h : AsExpected r true) : r = .ok () := by
  cases r with
  | ok u => rfl
  | throw e => exact absurd h.2 (by decide)
  | ub => exact absurd h id

theorem par_write_one (hreg : Registered D P vars hidden) (hE : EntryLaw vars hidden mode (marksFor D P) I) (hc : conv.Faithful)
    (hcI : convI.Faithful) (frame : Int) {n : String} (hhid : n ∈ vars.map SessVar.name ∨ hidden n = none)
    (hro : mode = .read → ¬ ∃ x ∈ vars, x.name = n ∧ x.localName ≠ none) (h : BothReady D P vars hidden mode I w t) :
    SameInBoth (ParWorld.writeNames conv convI frame [n] ⟨w, false⟩) (writeNames w.mem frame [n] (w.sess, w.file)).1
      (wrote frame [n] w) := by
  have hnames : Names w.sess [n] := by
    intro m hm
    rw [List.mem_singleton] at hm
    subst hm
    rw [h.inv.vars_eq, h.inv.hidden_eq]
    exact hhid
  by_cases hok : (writeNames w.mem frame [n] (w.sess, w.file)).1 = .ok ()
  · have := ((par_write hc hcI h.ready frame hnames).1 hok).1
    rw [SameInBoth, hok]
    exact this
  have hnb : 0 ≤ w.sess.nbFrames := by rw [h.inv.frames]; exact h.inv.nonneg
  by_cases hn : n ∈ vars.map SessVar.name
  · obtain ⟨x, hx, rfl, hf⟩ := find_known hn
    have hf' : w.sess.find x.name = some x := by rw [Sess.find, h.inv.vars_eq]; exact hf
    have hxs : x ∈ w.sess.vars := by rw [h.inv.vars_eq]; exact hx
    by_cases hmode : mode = .read
    · have hl : x.localName = none := by
        by_contra hl
        exact hro hmode ⟨x, hx, rfl, hl⟩
      have hs : w.sess.mode = .read := h.inv.mode_eq.trans hmode
      obtain ⟨fv, e1, e2, -⟩ := h.inv.agrees.each x hx
      obtain ⟨fv', p1, -⟩ := (hreg.writes (α := α) x hx).put (nb := 1) (frame := 0) (fr := 0) (h.holds x hx) (by rfl) e2
      have hmk : w.sess.marksOf x = marksFor D P x := marksOf_global hl
      have hput : ParWorld.putVar conv x frame ⟨w, false⟩ = (.throw .fileIOError, ⟨w, false⟩) := by
        unfold ParWorld.putVar
        dsimp only
        rw [e1]
        dsimp only
        cases hv : varFrame w.sess.nbFrames frame with
        | throw e =>
          rw [meantFrame_eq hnb] at hv
          split at hv
          · cases hv
          · cases hv; rfl
        | ub =>
          rw [meantFrame_eq hnb] at hv
          split at hv <;> cases hv
        | ok fr =>
          dsimp only
          rw [decide_eq_false (by simp [hs]), hmk, putPar_readOnly (procData_ne hreg hx (h.holds x hx)) (fun v hv => by
            have hv' := sources_procData v hv
            exact ((hreg.global x hx hl).field v hv').is_global) p1]
      have he : w.sess.entriesForWrite x frame w.file = .ok (w.sess, w.file) := by unfold Sess.entriesForWrite; rw [hl]
      have hp : w.sess.putVar w.mem x frame w.file = .throw .fileIOError := by
        unfold Sess.putVar
        have ha : w.sess.asksNothing x = false := by rw [Sess.asksNothing, hl]; rfl
        rw [e1, hs, ha]
        simp
      rw [SameInBoth]
      unfold wrote
      simp only [writeNames, ParWorld.writeNames, hf', he, hp]
      unfold ParWorld.entriesForWrite
      rw [hl]
      dsimp only [Joint.next]
      rw [hput]
      rfl
    · have hm : w.sess.mode ≠ .read := by rw [h.inv.mode_eq]; exact hmode
      have hfr : meantFrame t.nb frame = none := by
        by_contra hfr
        obtain ⟨fr, hfr⟩ := Option.ne_none_iff_exists'.1 hfr
        have := (writeNames_agrees hreg.nodup hreg.writes hE (mem := w.mem) frame [x.name] (fun m hm => by
          rw [List.mem_singleton] at hm; subst hm; exact .inl hn) (fun e => absurd e hmode) h.inv h.holds).1
        rw [Table.write, if_pos ⟨h.inv.writable.2 hmode, hn⟩, hfr] at this
        exact hok (expected_ok this)
      have hv : varFrame w.sess.nbFrames frame = .throw .fileIOError := by
        rw [h.inv.frames]; exact meantFrame_none h.inv.nonneg hfr
      have hent := entriesW_agrees hcI h.ready hm hxs frame
      rcases hE.step hmode frame hx h.inv.vars_eq h.inv.hidden_eq h.inv.mode_eq hnb h.inv.entries with
        ⟨s1, f1, e1, -, -, -, -, e6, -⟩ | ⟨-, e2⟩
      · have hpar := hent.1 { w with sess := s1, file := f1 } (by unfold World.entriesW; rw [e1]; rfl)
        have hv1 : varFrame s1.nbFrames frame = .throw .fileIOError := by rw [e6]; exact hv
        have hput : ParWorld.putVar conv x frame ⟨{ w with sess := s1, file := f1 }, false⟩ =
            (.throw .fileIOError, ⟨{ w with sess := s1, file := f1 }, false⟩) := putVar_refused (w := { w with sess := s1, file := f1 }) hv1
        rw [SameInBoth]
        unfold wrote
        simp only [writeNames, ParWorld.writeNames, hf', e1, putVar_throw hv1]
        rw [hpar]
        dsimp only [Joint.next]
        rw [hput]
        rfl
      · have hpar : ParWorld.entriesForWrite convI x frame ⟨w, false⟩ = (.throw .fileIOError, ⟨w, false⟩) := by
          have e3 := e2
          unfold Sess.entriesForWrite at e3
          unfold ParWorld.entriesForWrite
          dsimp only
          cases hl : x.localName with
          | none => rw [hl] at e3; cases e3
          | some l =>
            have hu : Used w.sess l := .inl ⟨x, hxs, hl⟩
            have put : w.sess.mode = .write ∨ w.sess.mode = .overwrite → l ∉ w.sess.written →
                (∃ e, w.sess.putEntries l 0 w.file = .throw e) →
                ParWorld.putEntries convI l 0 ⟨w, false⟩ = (.throw .fileIOError, ⟨w, false⟩) := by
              rintro hwm hnw ⟨e, he⟩
              have hv0 : varFrame w.sess.nbFrames 0 = .throw .fileIOError := by
                rcases hE.step hmode 0 hx h.inv.vars_eq h.inv.hidden_eq h.inv.mode_eq hnb h.inv.entries with
                  ⟨s1, f1, e1, -⟩ | ⟨e1, -⟩
                · exfalso
                  unfold Sess.entriesForWrite at e1
                  rw [hl] at e1
                  rcases hwm with hwm | hwm <;> rw [hwm] at e1 <;> dsimp only at e1 <;> rw [if_neg hnw, he] at e1 <;> cases e1
                · exact meantFrame_none hnb e1
              exact (putEntries_refused hcI h.ready hm hu hv0 he).2
            rw [hl] at e3
            cases hmo : w.sess.mode with
            | read => exact absurd hmo hm
            | write =>
              rw [hmo] at e3
              dsimp only at e3 ⊢
              split at e3
              · cases e3
              · rename_i hnw
                rw [if_neg hnw, put (.inl hmo) hnw (by
                  cases hp : w.sess.putEntries l 0 w.file with
                  | ok f => rw [hp] at e3; cases e3
                  | throw e => exact ⟨e, rfl⟩
                  | ub => rw [hp] at e3; cases e3)]
                rfl
            | overwrite =>
              rw [hmo] at e3
              dsimp only at e3 ⊢
              split at e3
              · cases e3
              · rename_i hnw
                rw [if_neg hnw, put (.inr hmo) hnw (by
                  cases hp : w.sess.putEntries l 0 w.file with
                  | ok f => rw [hp] at e3; cases e3
                  | throw e => exact ⟨e, rfl⟩
                  | ub => rw [hp] at e3; cases e3)]
                rfl
            | append =>
              rw [hmo] at e3
              dsimp only at e3 ⊢
              split at e3
              · cases e3
              · rename_i hnw
                rw [if_neg hnw]
                cases hp : w.sess.getEntries l frame w.file with
                | ok f => rw [hp] at e3; cases e3
                | ub => rw [hp] at e3; cases e3
                | throw e =>
                  rw [(getEntries_refused hcI h.ready hu hv hp).2]
                  rfl
        rw [SameInBoth]
        unfold wrote
        simp only [writeNames, ParWorld.writeNames, hf', e2]
        rw [hpar]
        rfl
  · have hf' : w.sess.find n = none := by rw [Sess.find, h.inv.vars_eq]; exact find_unknown hn
    have hh : w.sess.hidden n = none := by rw [h.inv.hidden_eq]; exact hhid.resolve_left hn
    have h1 : w.sess.putEntries n frame w.file = .throw .fileIOError := by unfold Sess.putEntries; rw [hh]
    have h2 : ParWorld.putEntries convI n frame ⟨w, false⟩ = (.throw .fileIOError, ⟨w, false⟩) := by
      unfold ParWorld.putEntries
      dsimp only
      rw [hh]
    rw [SameInBoth]
    unfold wrote
    simp only [writeNames, ParWorld.writeNames, hf', h1, h2]
    rfl

theorem par_read_one (hreg : Registered D P vars hidden) (hE : EntryLaw vars hidden mode (marksFor D P) I) (hc : conv.Faithful)
    (hcI : convI.Faithful) (frame : Int) {n : String} (hhid : n ∈ vars.map SessVar.name ∨ hidden n = none)
    (hreach : -t.nb ≤ frame ∨ ¬ ∃ x ∈ vars, x.name = n ∧ x.localName ≠ none)
    (hfill : t.Filled (vars.map SessVar.name) frame [n]) (h : BothReady D P vars hidden mode I w t) :
    SameInBoth (ParWorld.readNames conv convI frame [n] ⟨w, false⟩) (readNames w.file frame [n] (w.sess, w.mem)).1
      (gotten frame [n] w) := by
  have hnames : Names w.sess [n] := by
    intro m hm
    rw [List.mem_singleton] at hm
    subst hm
    rw [h.inv.vars_eq, h.inv.hidden_eq]
    exact hhid
  by_cases hok : (readNames w.file frame [n] (w.sess, w.mem)).1 = .ok ()
  · have := ((par_read hc hcI h.ready frame hnames).1 hok).1
    rw [SameInBoth, hok]
    exact this
  have hnb : 0 ≤ w.sess.nbFrames := by rw [h.inv.frames]; exact h.inv.nonneg
  by_cases hn : n ∈ vars.map SessVar.name
  · obtain ⟨x, hx, rfl, hf⟩ := find_known hn
    have hf' : w.sess.find x.name = some x := by rw [Sess.find, h.inv.vars_eq]; exact hf
    have hxs : x ∈ w.sess.vars := by rw [h.inv.vars_eq]; exact hx
    have hfx := hfill x.name (by simp) hn
    have hfr : meantFrame t.nb frame = none := by
      by_contra hfr
      obtain ⟨fr, hfr⟩ := Option.ne_none_iff_exists'.1 hfr
      rw [hfr] at hfx
      obtain ⟨v, hv⟩ := Option.ne_none_iff_exists'.1 hfx
      have := (readNames_agrees hreg.nodup hreg.reads hE (mem := w.mem) frame [x.name] (fun m hm => by
        rw [List.mem_singleton] at hm; subst hm; exact .inl hn) h.inv h.holds hfill).1
      rw [Table.read, if_pos hn, hfr] at this
      dsimp only at this hv
      rw [hv] at this
      exact hok (expected_ok this)
    have hhas : HasCell t.cell x.name := by rw [hfr] at hfx; exact hfx
    have hpos : 0 < w.sess.nbFrames := by
      obtain ⟨fr, v, hv⟩ := hhas
      have := h.inv.agrees.recs _ _ _ hv
      have := h.inv.enough
      have := h.inv.frames
      omega
    have hv : varFrame w.sess.nbFrames frame = .throw .fileIOError := by
      rw [h.inv.frames]; exact meantFrame_none h.inv.nonneg hfr
    obtain ⟨s1, e1, e2, e3, e4, e5, e6, e7⟩ := hE.look hx h.inv.vars_eq h.inv.hidden_eq h.inv.mode_eq hnb h.inv.entries hhas hpos
    have hw1 : w.entriesR x = .ok { w with sess := s1 } := by unfold World.entriesR; rw [e1]; rfl
    have hpar := (entriesR_agrees hcI h.ready hxs).1 _ hw1
    have hr1 := (entriesR_keeps hw1).ready h.ready
    have hv1 : varFrame s1.nbFrames frame = .throw .fileIOError := by rw [e6]; exact hv
    obtain ⟨fv, a1, a2, -⟩ := h.inv.agrees.each x hx
    obtain ⟨fv', p1, -⟩ := (hreg.writes (α := α) x hx).put (nb := 1) (frame := 0) (fr := 0) (h.holds x hx) (by rfl) a2
    have hget : ParWorld.getVar conv x frame ⟨{ w with sess := s1 }, false⟩ = (.throw .fileIOError, ⟨{ w with sess := s1 }, false⟩) := by
      unfold ParWorld.getVar
      dsimp only
      rw [a1]
      dsimp only
      rw [e7, getPar_refused hc (procData_ne hreg hx (h.holds x hx))
        (good_vars hr1 (by rw [← e3] at hx; exact hx) a1 _ _) p1 hv1 ?_]
      rcases hreach with hreach | hreach
      · right
        rw [e6, h.inv.frames]
        exact ⟨hreach, h.inv.nonneg⟩
      · left
        intro v hv
        have hl : x.localName = none := by
          by_contra hl
          exact hreach ⟨x, hx, rfl, hl⟩
        exact ((hreg.global x hx hl).field v (sources_procData v hv)).is_global
    have hget' : s1.getVar w.file x frame w.mem = .throw .fileIOError :=
      getVar_throw (hreg.reads x hx) e7 (h.holds x hx) hv1
    rw [SameInBoth]
    unfold gotten
    simp only [readNames, ParWorld.readNames, hf', e1, hget']
    rw [hpar]
    dsimp only [Joint.next]
    rw [hget]
    rfl
  · have hf' : w.sess.find n = none := by rw [Sess.find, h.inv.vars_eq]; exact find_unknown hn
    have hh : w.sess.hidden n = none := by rw [h.inv.hidden_eq]; exact hhid.resolve_left hn
    have h1 : w.sess.getEntries n frame w.file = .throw .fileIOError := by unfold Sess.getEntries; rw [hh]
    have h2 : ParWorld.getEntries convI n frame ⟨w, false⟩ = (.throw .fileIOError, ⟨w, false⟩) := by
      unfold ParWorld.getEntries
      dsimp only
      rw [hh]
    rw [SameInBoth]
    unfold gotten
    simp only [readNames, ParWorld.readNames, hf', h1, h2]
    rfl

theorem par_write_all (hreg : Registered D P vars hidden) (hE : EntryLaw vars hidden mode (marksFor D P) I) (hc : conv.Faithful)
    (hcI : convI.Faithful) (frame : Int) {ns : List String} (hhid : ∀ n ∈ ns, n ∈ vars.map SessVar.name ∨ hidden n = none)
    (hro : mode = .read → ∀ n, ns.head? = some n → ¬ ∃ x ∈ vars, x.name = n ∧ x.localName ≠ none)
    (h : BothReady D P vars hidden mode I w t) :
    SameInBoth (ParWorld.writeNames conv convI frame ns ⟨w, false⟩) (writeNames w.mem frame ns (w.sess, w.file)).1 (wrote frame ns w) := by
  induction ns generalizing w t with
  | nil => rfl
  | cons n ns ih =>
    have h1 := par_write_one hreg hE hc hcI frame (hhid n (List.mem_cons_self ..)) (fun e => hro e n rfl) h
    obtain ⟨a, b⟩ := writeNames_cons frame n ns w
    rw [par_writeNames_cons]
    by_cases hok : (writeNames w.mem frame [n] (w.sess, w.file)).1 = .ok ()
    · rw [(a hok).1, (a hok).2]
      obtain ⟨g1, g2, g3⟩ := writeNames_agrees hreg.nodup hreg.writes hE (mem := w.mem) frame [n]
        (fun m hm => by rw [List.mem_singleton] at hm; subst hm; exact hhid m (List.mem_cons_self ..))
        (fun e m hm => by cases hm; exact hro e _ rfl) h.inv h.holds
      have hmode : mode ≠ .read := by
        rw [← h.inv.writable]
        by_contra hw
        rw [Table.write, if_neg (fun k => hw k.1), hok] at g1
        exact Bool.noConfusion (show false = true from g1)
      rw [SameInBoth, hok] at h1
      rw [h1]
      exact ih (fun m hm => hhid m (List.mem_cons_of_mem _ hm)) (fun e => absurd e hmode)
        (t := (t.write (vars.map SessVar.name) frame [n]).2)
        ⟨g2, fun x hx => by rw [g3]; exact h.holds x hx, (wrote_keeps1 frame n w).ready h.ready⟩
    · rw [(b hok).1, (b hok).2]
      exact h1.next hok _

theorem par_read_all (hreg : Registered D P vars hidden) (hE : EntryLaw vars hidden mode (marksFor D P) I) (hc : conv.Faithful)
    (hcI : convI.Faithful) (frame : Int) {ns : List String} (hhid : ∀ n ∈ ns, n ∈ vars.map SessVar.name ∨ hidden n = none)
    (hreach : -t.nb ≤ frame ∨ ∀ n ∈ ns, ¬ ∃ x ∈ vars, x.name = n ∧ x.localName ≠ none)
    (hfill : t.Filled (vars.map SessVar.name) frame ns) (h : BothReady D P vars hidden mode I w t) :
    SameInBoth (ParWorld.readNames conv convI frame ns ⟨w, false⟩) (readNames w.file frame ns (w.sess, w.mem)).1 (gotten frame ns w) := by
  induction ns generalizing w t with
  | nil => rfl
  | cons n ns ih =>
    have hfill1 : t.Filled (vars.map SessVar.name) frame [n] := fun m hm => hfill m (by simp at hm; simp [hm])
    have h1 := par_read_one hreg hE hc hcI frame (hhid n (List.mem_cons_self ..))
      (hreach.imp id fun k => k n (List.mem_cons_self ..)) hfill1 h
    obtain ⟨a, b⟩ := readNames_cons frame n ns w
    rw [par_readNames_cons]
    by_cases hok : (readNames w.file frame [n] (w.sess, w.mem)).1 = .ok ()
    · rw [(a hok).1, (a hok).2]
      obtain ⟨g1, g2, g3⟩ := readNames_agrees hreg.nodup hreg.reads hE (mem := w.mem) frame [n]
        (fun m hm => by rw [List.mem_singleton] at hm; subst hm; exact hhid m (List.mem_cons_self ..)) h.inv h.holds hfill1
      have hsame : (t.read (vars.map SessVar.name) frame [n]).2.nb = t.nb ∧
          (t.read (vars.map SessVar.name) frame [n]).2.cell = t.cell := by
        simp only [Table.read]
        split
        · split
          · split <;> exact ⟨rfl, rfl⟩
          · exact ⟨rfl, rfl⟩
        · exact ⟨rfl, rfl⟩
      rw [SameInBoth, hok] at h1
      rw [h1]
      refine ih (fun m hm => hhid m (List.mem_cons_of_mem _ hm)) (t := (t.read (vars.map SessVar.name) frame [n]).2) ?_ ?_
        ⟨g2, g3, (gotten_keeps1 frame n w).ready h.ready⟩
      · rw [hsame.1]
        exact hreach.imp id fun k m hm => k m (List.mem_cons_of_mem _ hm)
      · intro m hm hk
        have := hfill m (List.mem_cons_of_mem _ hm) hk
        rw [hsame.1, hsame.2]
        exact this
    · rw [(b hok).1, (b hok).2]
      exact h1.next hok _

/-- Sequences of calls, refused or not. -/
theorem par_run_all (hreg : Registered D P vars hidden) (hE : EntryLaw vars hidden mode (marksFor D P) I) (hc : conv.Faithful)
    (hcI : convI.Faithful) {ops : List (FileOp (Memory α))} {sops : List (FileOp (String → Values α))}
    (hops : List.Forall₂ (SameOp fun mem c => ∀ x ∈ vars, VarHolds P x (mem x.name) (c x.name)) ops sops)
    (hhid : ∀ op ∈ ops, NoHidden vars hidden op) (hro : mode = .read → ∀ op ∈ ops, Refused vars op)
    (hgap : t.NoGaps (vars.map SessVar.name) sops)
    (hreach : t.StaysInReach (fun n => ∃ x ∈ vars, x.name = n ∧ x.localName ≠ none) (vars.map SessVar.name) sops)
    (h : BothReady D P vars hidden mode I w t) :
    ParWorld.run conv convI ⟨w, false⟩ ops = ((w.run ops).1.map together, ⟨(w.run ops).2, false⟩) := by
  induction hops generalizing w t with
  | nil => rfl
  | @cons op sop ops sops hop hops ih =>
    have hnm : w.sess.names = vars.map SessVar.name := by rw [Sess.names, h.inv.vars_eq]
    obtain ⟨-, k2, k3⟩ := run_agrees (R := relations D P) hreg.nodup hreg.writes hreg.reads hE (.cons hop .nil)
      (fun o ho => by rw [List.mem_singleton] at ho; subst ho; exact hhid o (List.mem_cons_self ..))
      (fun e o ho => by rw [List.mem_singleton] at ho; subst ho; exact hro e o (List.mem_cons_self ..))
      (t := t) ⟨hgap.1, trivial⟩ h.inv h.holds
    have key : SameInBoth (ParWorld.step conv convI ⟨w, false⟩ op) (w.step op).1 (w.step op).2 ∧ ParKeeps w (w.step op).2 := by
      have ho := hhid op (List.mem_cons_self ..)
      have hgap1 := hgap.1
      have hreach1 := hreach.1
      cases hop with
      | appendFrame => exact ⟨rfl, rfl, rfl, rfl, fun _ fv h => ⟨fv, h, rfl⟩, fun _ fv h => ⟨fv, h, rfl⟩⟩
      | compute hcmp => exact ⟨rfl, keeps_mem _ _⟩
      | write frame names =>
        exact ⟨par_write_all hreg hE hc hcI frame ho (fun e n hn => hro e _ (List.mem_cons_self ..) n hn) h,
          wrote_keeps frame names w⟩
      | writeAll frame =>
        refine ⟨par_write_all hreg hE hc hcI frame (ns := w.sess.names) (fun n hn => .inl (hnm ▸ hn)) (fun e n hn => ?_) h,
          wrote_keeps frame w.sess.names w⟩
        rw [hnm] at hn
        exact hro e _ (List.mem_cons_self ..) n hn
      | read frame names =>
        exact ⟨par_read_all hreg hE hc hcI frame ho hreach1 hgap1 h, gotten_keeps frame names w⟩
      | readAll frame =>
        refine ⟨par_read_all hreg hE hc hcI frame (ns := w.sess.names) (fun n hn => .inl (hnm ▸ hn)) ?_ ?_ h,
          gotten_keeps frame w.sess.names w⟩
        · rw [hnm]; exact hreach1
        · rw [hnm]; exact hgap1
    have hnext := ih (fun o ho => hhid o (List.mem_cons_of_mem _ ho)) (fun e o ho => hro e o (List.mem_cons_of_mem _ ho))
      (w := (w.step op).2) (t := (t.step (vars.map SessVar.name) sop).2) hgap.2 hreach.2 ⟨k2, k3, key.2.ready h.ready⟩
    rw [ParWorld.run, World.run]
    have e := key.1
    rw [SameInBoth] at e
    rw [e]
    generalize (w.step op).1 = o
    cases o with
    | ok u => dsimp only [together]; rw [hnext]; rfl
    | throw er => dsimp only [together]; rw [hnext]; rfl
    | ub => dsimp only [together]; rw [hnext]; rfl

end

end Verif.Props
