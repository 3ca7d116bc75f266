import Verif.Spec.ParallelSession
import Verif.Lemmas.ParallelFile
/-
Sessions in the parallel build do what sessions in the serial build do, as long as nothing fails.
-/
namespace Verif.NetCDF
open Verif Verif.RawMemory Verif.FileIO

theorem mapRes_iff {β γ : Type} {g : β → Res γ} {l : List β} {r : List γ} :
    mapRes g l = .ok r ↔ List.Forall₂ (fun x y => g x = .ok y) l r := by
  induction l generalizing r with
  | nil =>
    constructor
    · intro h; cases h; exact .nil
    · intro h; cases h; rfl
  | cons x l ih =>
    rw [mapRes]
    constructor
    · intro h
      obtain ⟨y, h1, h⟩ := Res.bind_eq_ok.1 h
      obtain ⟨ys, h2, h⟩ := Res.bind_eq_ok.1 h
      cases h
      exact .cons h1 (ih.1 h2)
    · intro h
      cases h with
      | cons h1 h2 =>
        rw [h1, Res.ok_bind, ih.2 h2]
        rfl

theorem jointly_ok {β : Type} {rs : List (Res β)} {xs : List β} :
    jointly rs = .ok xs ↔ List.Forall₂ (fun r x => r = .ok x) rs xs := by
  unfold jointly
  constructor
  · intro h
    split at h
    · cases h
    · split at h
      · rename_i ys hm
        cases h
        exact mapRes_iff.1 hm
      · split at h <;> cases h
      · cases h
  · intro h
    have hm : mapRes id rs = .ok xs := mapRes_iff.2 h
    have hu : rs.any isUb = false := by
      rw [List.any_eq_false]
      intro r hr
      clear hm
      induction h with
      | nil => cases hr
      | cons h1 _ ih =>
        rcases List.mem_cons.1 hr with rfl | hr
        · rw [h1]; simp [isUb]
        · exact ih hr
    rw [hu, hm]
    rfl

theorem forall₂_middle {β γ δ : Type} {R : β → γ → Prop} {S : γ → δ → Prop} {l : List β} {r : List δ}
    (h : List.Forall₂ (fun x z => ∃ y, R x y ∧ S y z) l r) : ∃ m, List.Forall₂ R l m ∧ List.Forall₂ S m r := by
  induction h with
  | nil => exact ⟨[], .nil, .nil⟩
  | cons h1 _ ih =>
    obtain ⟨y, a, b⟩ := h1
    obtain ⟨m, c, d⟩ := ih
    exact ⟨y :: m, .cons a c, .cons b d⟩

theorem forall₂_compose {β γ δ : Type} {R : β → γ → Prop} {S : γ → δ → Prop} {l : List β} {m : List γ} {r : List δ}
    (h : List.Forall₂ R l m) (h' : List.Forall₂ S m r) : List.Forall₂ (fun x z => ∃ y, R x y ∧ S y z) l r := by
  induction h generalizing r with
  | nil => cases h'; exact .nil
  | cons h1 _ ih =>
    cases h' with
    | cons a b => exact .cons ⟨_, h1, a⟩ (ih b)

section
variable {α : Type} {conv : Conv α}

theorem putPart_same (hc : conv.Faithful) {v : Var} (hv : v.Registered) (nb frame : Int) (k : Nat) (marks : List Int)
    (buf : Mem α) {fv : FileVar α} (ht : fv.ty = v.dataType) :
    v.putPart conv true false nb frame k marks buf fv = v.write nb frame k marks buf fv := by
  unfold Var.putPart Var.write
  rcases hv.cases with ⟨hg, vname, f, hidden, hist, h1, h2, h3, h4⟩ | ⟨hg, vname, f, hist, total, h1, h2⟩
  · rw [if_pos hg, if_pos hg]
    exact writeGlobalMpi_same h1 h2 h3 h4 hc nb frame k buf ht
  · rw [hg, writeLocal_prepare h1 nb frame k marks buf ht]
    cases hp : v.prepareLocal nb frame k marks with
    | throw e => rfl
    | ub => rfl
    | ok p =>
      have := putRequestsMpi_prepared h1 h2 conv hp buf fv
      rw [← ht, map_faithful hc, bind_ty fun x hx => writeLocal_ty hx] at this
      show v.putRequestsMpi conv p.2.1 p.2.2.1 p.2.2.2 buf p.1 0 fv = _
      rw [this, writeLocal_prepare h1 nb frame k marks buf ht, hp]
      rfl

theorem getPart_same (hc : conv.Faithful) {v : Var} (hv : v.Registered) (nb frame : Int) (k : Nat) (marks : List Int)
    (numrecs : Int) (buf : Mem α) {fv : FileVar α} (ht : fv.ty = v.dataType) :
    v.getPart conv false nb frame k marks numrecs fv buf = v.read nb frame k marks numrecs fv buf := by
  unfold Var.getPart Var.read
  rcases hv.cases with ⟨hg, vname, f, hidden, hist, h1, h2, h3, h4⟩ | ⟨hg, vname, f, hist, total, h1, h2⟩
  · rw [if_pos hg, if_pos hg]
    exact readGlobalMpi_same h1 h2 h3 h4 hc nb frame k numrecs buf ht
  · rw [hg, readLocal_prepare h1 nb frame k marks numrecs buf ht]
    cases hp : v.prepareLocal nb frame k marks with
    | throw e => rfl
    | ub => rfl
    | ok p =>
      have := getRequestsMpi_prepared h1 h2 conv hp numrecs buf fv
      rw [shownAs_self hc ht] at this
      show v.getRequestsMpi conv p.2.1 p.2.2.1 p.2.2.2 fv numrecs p.1 0 buf = _
      rw [this, readLocal_prepare h1 nb frame k marks numrecs buf ht, hp]
      rfl

theorem write_ty {v : Var} {nb frame : Int} {k : Nat} {marks : List Int} {buf : Mem α} {fv r : FileVar α}
    (h : v.write nb frame k marks buf fv = .ok r) : r.ty = fv.ty := by
  unfold Var.write at h
  split at h
  · exact writeGlobal_ty h
  · exact writeLocal_ty h

theorem writeRanks_ty {nb frame : Int} {k : Nat} {ws : List (Var × List Int × Mem α)} {fv r : FileVar α}
    (h : Var.writeRanks nb frame k ws fv = .ok r) : r.ty = fv.ty := by
  induction ws generalizing fv with
  | nil => cases h; rfl
  | cons w ws ih =>
    obtain ⟨v, marks, buf⟩ := w
    rw [Var.writeRanks] at h
    obtain ⟨fv', h1, h⟩ := Res.bind_eq_ok.1 h
    rw [ih h, write_ty h1]

/-- All variables are registered and have the type of the variable in the file. -/
def Good (ws : List Var) (fv : FileVar α) : Prop := ∀ v ∈ ws, v.Registered ∧ fv.ty = v.dataType

theorem putParts_ok (hc : conv.Faithful) {nb frame : Int} {k : Nat} {ws : List (Var × List Int × Mem α)} {fv fv' : FileVar α}
    (hg : Good (ws.map Prod.fst) fv) (h : Var.writeRanks nb frame k ws fv = .ok fv') :
    putParts conv true false nb frame k ws fv = (ws.map fun _ => .ok (), fv') := by
  induction ws generalizing fv with
  | nil => cases h; rfl
  | cons w ws ih =>
    obtain ⟨v, marks, buf⟩ := w
    rw [Var.writeRanks] at h
    obtain ⟨fv1, h1, h⟩ := Res.bind_eq_ok.1 h
    obtain ⟨r1, r2⟩ := hg v (by simp)
    rw [putParts, putPart_same hc r1 nb frame k marks buf r2, h1]
    dsimp only
    rw [ih (fun u hu => ?_) h]
    · rfl
    · obtain ⟨a, b⟩ := hg u (by simp only [List.map_cons]; exact List.mem_cons_of_mem _ hu)
      exact ⟨a, by rw [write_ty h1, b]⟩

theorem putParts_fails (hc : conv.Faithful) {nb frame : Int} {k : Nat} {ws : List (Var × List Int × Mem α)} {fv : FileVar α}
    (hg : Good (ws.map Prod.fst) fv) {us : List Unit}
    (h : List.Forall₂ (fun r x => r = Res.ok x) (putParts conv true false nb frame k ws fv).1 us) :
    ∃ fv', Var.writeRanks nb frame k ws fv = .ok fv' := by
  induction ws generalizing fv us with
  | nil => exact ⟨fv, rfl⟩
  | cons w ws ih =>
    obtain ⟨v, marks, buf⟩ := w
    obtain ⟨r1, r2⟩ := hg v (by simp)
    rw [putParts, putPart_same hc r1 nb frame k marks buf r2] at h
    cases hw : v.write nb frame k marks buf fv with
    | throw e => rw [hw] at h; cases h with | cons a b => cases a
    | ub => rw [hw] at h; cases h with | cons a b => cases a
    | ok fv1 =>
      rw [hw] at h
      cases h with
      | cons a b =>
        obtain ⟨fv', h'⟩ := ih (fv := fv1) (fun u hu => by
          obtain ⟨a, b⟩ := hg u (by simp only [List.map_cons]; exact List.mem_cons_of_mem _ hu)
          exact ⟨a, by rw [write_ty hw, b]⟩) b
        exact ⟨fv', by rw [Var.writeRanks, hw, Res.ok_bind, h']⟩

theorem indepAfter_ok {β : Type} (sw : Bool) (x : β) : indepAfter false sw (.ok x) = false := by cases sw <;> rfl

theorem putCall_ok (hc : conv.Faithful) {nb frame : Int} {k : Nat} {ws : List (Var × List Int × Mem α)} {fv fv' : FileVar α}
    (hg : Good (ws.map Prod.fst) fv) (h : Var.writeRanks nb frame k ws fv = .ok fv') :
    putCall conv true false nb frame k ws fv = (.ok (ws.map fun _ => ()), false, fv') := by
  unfold putCall
  rw [putParts_ok hc hg h]
  have : jointly (ws.map fun _ => Res.ok ()) = .ok (ws.map fun _ => ()) := by
    rw [jointly_ok]
    clear hg h
    induction ws with
    | nil => exact .nil
    | cons w ws ih => exact .cons rfl ih
  dsimp only
  rw [this, indepAfter_ok]

theorem putCall_fails (hc : conv.Faithful) {nb frame : Int} {k : Nat} {ws : List (Var × List Int × Mem α)} {fv : FileVar α}
    (hg : Good (ws.map Prod.fst) fv) {us : List Unit} (h : (putCall conv true false nb frame k ws fv).1 = .ok us) :
    ∃ fv', Var.writeRanks nb frame k ws fv = .ok fv' :=
  putParts_fails hc hg (jointly_ok.1 h)

theorem getCall_iff (hc : conv.Faithful) {nb frame numrecs : Int} {k : Nat} {ws : List (Var × List Int × Mem α)} {fv : FileVar α}
    (hg : Good (ws.map Prod.fst) fv) {bs : List (Mem α)} :
    (getCall conv false nb frame k numrecs fv ws).1 = .ok bs ↔
      List.Forall₂ (fun w b => w.1.read nb frame k w.2.1 numrecs fv w.2.2 = .ok b) ws bs := by
  unfold getCall
  dsimp only
  rw [jointly_ok, List.forall₂_map_left_iff]
  have key : ∀ w ∈ ws, w.1.getPart conv false nb frame k w.2.1 numrecs fv w.2.2 =
      w.1.read nb frame k w.2.1 numrecs fv w.2.2 := fun w hw => by
    obtain ⟨a, b⟩ := hg w.1 (List.mem_map.2 ⟨w, hw, rfl⟩)
    exact getPart_same hc a nb frame k w.2.1 numrecs w.2.2 b
  clear hg
  constructor
  · intro h
    induction h with
    | nil => exact .nil
    | cons a _ ih =>
      exact .cons (by rw [← key _ (List.mem_cons_self ..)]; exact a) (ih fun w hw => key w (List.mem_cons_of_mem _ hw))
  · intro h
    induction h with
    | nil => exact .nil
    | cons a _ ih =>
      exact .cons (by rw [key _ (List.mem_cons_self ..)]; exact a) (ih fun w hw => key w (List.mem_cons_of_mem _ hw))

theorem getCall_collective {nb frame numrecs : Int} {k : Nat} {ws : List (Var × List Int × Mem α)} {fv : FileVar α}
    {bs : List (Mem α)} (h : (getCall conv false nb frame k numrecs fv ws).1 = .ok bs) :
    (getCall conv false nb frame k numrecs fv ws).2 = false := by
  unfold getCall at h ⊢
  dsimp only at h ⊢
  rw [h, indepAfter_ok]

/-- The variables that the processes bring. -/
def sources (ws : List (StateData α)) : List Var := ws.map StateData.v

theorem good_of {ws : List (StateData α)} {fv : FileVar α} (hg : Good (sources ws) fv) {g : StateData α → Res (Mem α)}
    {rs : List (Var × List Int × Mem α)}
    (h : mapRes (fun w : StateData α => do let b ← g w; pure (w.v, w.marks, b)) ws = .ok rs) : Good (rs.map Prod.fst) fv := by
  have : rs.map Prod.fst = sources ws := by
    have h' := mapRes_iff.1 h
    clear hg h
    induction h' with
    | nil => rfl
    | cons a _ ih =>
      obtain ⟨b, -, a⟩ := Res.bind_eq_ok.1 a
      cases a
      simp only [List.map_cons, sources] at ih ⊢
      rw [ih]
  rw [this]; exact hg

/-- The loop of `writeState`. -/
def writeLoop (nb frame : Int) (ws : List (StateData α)) (k : Nat) (fv : FileVar α) : Res (FileVar α) := do
  let rs ← mapRes (fun w : StateData α => do let b ← stateBuf w.idx w.bufs k; pure (w.v, w.marks, b)) ws
  Var.writeRanks nb frame k rs fv

theorem writeLoop_ty {nb frame : Int} {ws : List (StateData α)} {ks : List Nat} {fv fv' : FileVar α}
    (h : histLoop (writeLoop nb frame ws) ks fv = .ok fv') : fv'.ty = fv.ty := by
  induction ks generalizing fv with
  | nil => cases h; rfl
  | cons k ks ih =>
    rw [histLoop] at h
    obtain ⟨fv1, h1, h⟩ := Res.bind_eq_ok.1 h
    rw [ih h]
    obtain ⟨rs, -, h1⟩ := Res.bind_eq_ok.1 h1
    exact writeRanks_ty h1

theorem putHist_ok (hc : conv.Faithful) {nb frame : Int} {ws : List (StateData α)} {ks : List Nat} {fv fv' : FileVar α}
    (hg : Good (sources ws) fv) (h : histLoop (writeLoop nb frame ws) ks fv = .ok fv') :
    putHist conv true nb frame ws ks false fv = (.ok [], false, fv') := by
  induction ks generalizing fv with
  | nil => cases h; rfl
  | cons k ks ih =>
    rw [histLoop] at h
    obtain ⟨fv1, h1, h⟩ := Res.bind_eq_ok.1 h
    obtain ⟨rs, h0, h1⟩ := Res.bind_eq_ok.1 h1
    rw [putHist, h0]
    dsimp only
    rw [putCall_ok hc (good_of hg h0) h1]
    dsimp only
    exact ih (fun u hu => ⟨(hg u hu).1, by rw [writeRanks_ty h1, (hg u hu).2]⟩) h

theorem putHist_fails (hc : conv.Faithful) {nb frame : Int} {ws : List (StateData α)} {ks : List Nat} {fv : FileVar α}
    (hg : Good (sources ws) fv) {us : List Unit} (h : (putHist conv true nb frame ws ks false fv).1 = .ok us) :
    ∃ fv', histLoop (writeLoop nb frame ws) ks fv = .ok fv' := by
  induction ks generalizing fv with
  | nil => exact ⟨fv, rfl⟩
  | cons k ks ih =>
    rw [putHist] at h
    cases h0 : mapRes (fun w : StateData α => do let b ← stateBuf w.idx w.bufs k; pure (w.v, w.marks, b)) ws with
    | throw e => rw [h0] at h; cases h
    | ub => rw [h0] at h; cases h
    | ok rs =>
      rw [h0] at h
      dsimp only at h
      have hr : ∃ fv1, Var.writeRanks nb frame k rs fv = .ok fv1 := by
        rcases hp : putCall conv true false nb frame k rs fv with ⟨j, i, g⟩
        rw [hp] at h
        cases j with
        | ok us => exact putCall_fails hc (good_of hg h0) (us := us) (by rw [hp])
        | throw e => cases h
        | ub => cases h
        | apart => cases h
      obtain ⟨fv1, h1⟩ := hr
      rw [putCall_ok hc (good_of hg h0) h1] at h
      dsimp only at h
      obtain ⟨fv', h'⟩ := ih (fun u hu => ⟨(hg u hu).1, by rw [writeRanks_ty h1, (hg u hu).2]⟩) h
      refine ⟨fv', ?_⟩
      rw [histLoop]
      show (writeLoop nb frame ws k fv).bind _ = _
      rw [show writeLoop nb frame ws k fv = .ok fv1 by unfold writeLoop; rw [h0]; exact h1]
      exact h'

/-! ### Transfers without requests -/

theorem marked_quiet {marks : List Int} (h : ∀ i ∈ marks, i = -1) : Var.marked marks = [] := by
  unfold Var.marked
  rw [List.filter_eq_nil_iff]
  intro i hi
  simp [h i hi]

theorem prepareLocal_quiet {v : Var} {nb frame : Int} {k : Nat} {marks : List Int} (h : ∀ i ∈ marks, i = -1)
    {p : List (List Int × List Int) × List Int × List Int × MpiType} (hp : v.prepareLocal nb frame k marks = .ok p) :
    p.1 = [] := by
  unfold Var.prepareLocal at hp
  obtain ⟨f, -, hp⟩ := Res.bind_eq_ok.1 hp
  obtain ⟨starts, h1, hp⟩ := Res.bind_eq_ok.1 hp
  obtain ⟨counts, -, hp⟩ := Res.bind_eq_ok.1 hp
  obtain ⟨stride, -, hp⟩ := Res.bind_eq_ok.1 hp
  obtain ⟨imap, -, hp⟩ := Res.bind_eq_ok.1 hp
  obtain ⟨t, -, hp⟩ := Res.bind_eq_ok.1 hp
  cases hp
  unfold Var.startLocal at h1
  split at h1
  · cases h1
  · rw [marked_quiet h] at h1
    cases h1
    rfl

theorem putPart_quiet {v : Var} {nb frame : Int} {k : Nat} {marks : List Int} {buf : Mem α} {fv : FileVar α}
    (hg : v.field.isGlobal = false) (h : ∀ i ∈ marks, i = -1) :
    v.putPart conv false false nb frame k marks buf fv = v.putPart conv true false nb frame k marks buf fv := by
  unfold Var.putPart
  rw [hg]
  simp only [Bool.false_eq_true, if_false]
  cases hp : v.prepareLocal nb frame k marks with
  | throw e => rfl
  | ub => rfl
  | ok p =>
    simp only [Res.ok_bind]
    rw [prepareLocal_quiet h hp]
    rfl

/-- Local fields none of whose pixels has an entry. -/
def Quiet (ws : List (StateData α)) : Prop := ∀ d ∈ ws, d.v.field.isGlobal = false ∧ ∀ i ∈ d.marks, i = -1

theorem quiet_of {ws : List (StateData α)} (hq : Quiet ws) {g : StateData α → Res (Mem α)}
    {rs : List (Var × List Int × Mem α)}
    (h : mapRes (fun w : StateData α => do let b ← g w; pure (w.v, w.marks, b)) ws = .ok rs) :
    ∀ r ∈ rs, r.1.field.isGlobal = false ∧ ∀ i ∈ r.2.1, i = -1 := by
  have h' := mapRes_iff.1 h
  clear h
  induction h' with
  | nil => intro r hr; cases hr
  | cons a _ ih =>
    obtain ⟨b, -, a⟩ := Res.bind_eq_ok.1 a
    cases a
    intro r hr
    rcases List.mem_cons.1 hr with rfl | hr
    · exact hq _ (List.mem_cons_self ..)
    · exact ih (fun d hd => hq d (List.mem_cons_of_mem _ hd)) r hr

theorem putCall_quiet {nb frame : Int} {k : Nat} {ws : List (Var × List Int × Mem α)} {fv : FileVar α}
    (hq : ∀ r ∈ ws, r.1.field.isGlobal = false ∧ ∀ i ∈ r.2.1, i = -1) :
    putCall conv false false nb frame k ws fv = putCall conv true false nb frame k ws fv := by
  have : putParts conv false false nb frame k ws fv = putParts conv true false nb frame k ws fv := by
    induction ws generalizing fv with
    | nil => rfl
    | cons r ws ih =>
      obtain ⟨v, marks, buf⟩ := r
      obtain ⟨a, b⟩ := hq _ (List.mem_cons_self ..)
      have ih' := fun fv => ih (fv := fv) fun r hr => hq r (List.mem_cons_of_mem _ hr)
      rw [putParts, putParts, putPart_quiet a b]
      simp only [ih']
  unfold putCall
  rw [this]

theorem putHist_quiet {nb frame : Int} {ws : List (StateData α)} (hq : Quiet ws) {ks : List Nat} {fv : FileVar α} :
    putHist conv false nb frame ws ks false fv = putHist conv true nb frame ws ks false fv := by
  suffices ∀ i, (i = false → putHist conv false nb frame ws ks i fv = putHist conv true nb frame ws ks i fv) from this _ rfl
  intro i hi
  subst hi
  induction ks generalizing fv with
  | nil => rfl
  | cons k ks ih =>
    rw [putHist, putHist]
    cases h0 : mapRes (fun w : StateData α => do let b ← stateBuf w.idx w.bufs k; pure (w.v, w.marks, b)) ws with
    | throw e => rfl
    | ub => rfl
    | ok rs =>
      dsimp only
      rw [putCall_quiet (quiet_of hq h0)]
      rcases hp : putCall conv true false nb frame k rs fv with ⟨j, i, g⟩
      cases j with
      | throw e => rfl
      | ub => rfl
      | apart => rfl
      | ok us =>
        have hi : i = false := by
          have := congrArg (fun r => r.2.1) hp
          have h1 := congrArg (fun r => r.1) hp
          unfold putCall at this h1
          dsimp only at this h1
          rw [h1, indepAfter_ok] at this
          exact this.symm
        subst hi
        exact ih

/-- The loop of `readState`. -/
def readLoop (nb frame numrecs : Int) (fv : FileVar α) (w : StateData α) (k : Nat) (bufs : List (Mem α)) :
    Res (List (Mem α)) := do
  let j ← stateSlot w.idx k
  let b ← at! bufs j
  let b' ← w.v.read nb frame k w.marks numrecs fv b
  pure (bufs.set j b')

theorem readLoop_iff {nb frame numrecs : Int} {fv : FileVar α} {w : StateData α} {k : Nat} {bufs : List (Mem α)} :
    readLoop nb frame numrecs fv w k w.bufs = .ok bufs ↔
      ∃ r : (StateData α × Nat × Mem α) × Mem α, (StateData.slot k w = .ok r.1 ∧
        r.1.1.v.read nb frame k r.1.1.marks numrecs fv r.1.2.2 = .ok r.2) ∧ bufs = r.1.1.bufs.set r.1.2.1 r.2 := by
  unfold readLoop StateData.slot
  constructor
  · intro h
    obtain ⟨j, h1, h⟩ := Res.bind_eq_ok.1 h
    obtain ⟨b, h2, h⟩ := Res.bind_eq_ok.1 h
    obtain ⟨b', h3, h⟩ := Res.bind_eq_ok.1 h
    cases h
    exact ⟨((w, j, b), b'), ⟨by rw [h1, Res.ok_bind, h2]; rfl, h3⟩, rfl⟩
  · rintro ⟨⟨r, b'⟩, ⟨h1, h2⟩, rfl⟩
    obtain ⟨j, e1, h1⟩ := Res.bind_eq_ok.1 h1
    obtain ⟨b, e2, h1⟩ := Res.bind_eq_ok.1 h1
    cases h1
    dsimp only at h2
    rw [e1, Res.ok_bind, e2, Res.ok_bind, h2]
    rfl

theorem slot_fst {k : Nat} {w : StateData α} {r : StateData α × Nat × Mem α} (h : StateData.slot k w = .ok r) : r.1 = w := by
  unfold StateData.slot at h
  obtain ⟨j, -, h⟩ := Res.bind_eq_ok.1 h
  obtain ⟨b, -, h⟩ := Res.bind_eq_ok.1 h
  cases h; rfl

/-- What one entry of the history does to the data of a process. -/
def after (r : (StateData α × Nat × Mem α) × Mem α) : StateData α := { r.1.1 with bufs := r.1.1.bufs.set r.1.2.1 r.2 }

theorem getHist_cons (hc : conv.Faithful) {nb frame numrecs : Int} {fv : FileVar α} {k : Nat} {ks : List Nat}
    {ws : List (StateData α)} {m : List ((StateData α × Nat × Mem α) × Mem α)} (hg : Good (sources ws) fv)
    (h : List.Forall₂ (fun w r => StateData.slot k w = .ok r.1 ∧
      r.1.1.v.read nb frame k r.1.1.marks numrecs fv r.1.2.2 = .ok r.2) ws m) :
    getHist conv nb frame numrecs fv (k :: ks) false ws = getHist conv nb frame numrecs fv ks false (m.map after) := by
  have h0 : mapRes (StateData.slot k) ws = .ok (m.map Prod.fst) := by
    rw [mapRes_iff, List.forall₂_map_right_iff]
    exact h.imp fun _ _ h => h.1
  have hs : ((m.map Prod.fst).map (fun r => (r.1.v, r.1.marks, r.2.2))).map Prod.fst = sources ws := by
    clear h0 hg
    induction h with
    | nil => rfl
    | cons a _ ih =>
      simp only [List.map_cons, sources] at ih ⊢
      rw [ih, slot_fst a.1]
  have hg' : Good (((m.map Prod.fst).map (fun r => (r.1.v, r.1.marks, r.2.2))).map Prod.fst) fv := by rw [hs]; exact hg
  have h1 : (getCall conv false nb frame k numrecs fv ((m.map Prod.fst).map fun r => (r.1.v, r.1.marks, r.2.2))).1 =
      .ok (m.map Prod.snd) := by
    rw [getCall_iff hc hg', List.forall₂_map_left_iff, List.forall₂_map_left_iff, List.forall₂_map_right_iff]
    clear h0 hs hg' hg
    induction h with
    | nil => exact .nil
    | cons a _ ih => exact .cons a.2 ih
  have h2 := getCall_collective h1
  rw [getHist, h0]
  dsimp only
  have hp : getCall conv false nb frame k numrecs fv ((m.map Prod.fst).map fun r => (r.1.v, r.1.marks, r.2.2)) =
      (.ok (m.map Prod.snd), false) := Prod.ext h1 h2
  rw [hp]
  dsimp only
  congr 1
  clear hp h1 h2 hg' hs h0 h hg
  induction m with
  | nil => rfl
  | cons r m ih => simp only [List.map_cons, List.zipWith_cons_cons, ih]; rfl

theorem getHist_ok (hc : conv.Faithful) {nb frame numrecs : Int} {fv : FileVar α} {ks : List Nat}
    {ws : List (StateData α)} (hg : Good (sources ws) fv) {bss : List (List (Mem α))}
    (h : List.Forall₂ (fun w bs => histLoop (readLoop nb frame numrecs fv w) ks w.bufs = .ok bs) ws bss) :
    getHist conv nb frame numrecs fv ks false ws = (.ok (List.zipWith (fun w bs => { w with bufs := bs }) ws bss), false) := by
  induction ks generalizing ws with
  | nil =>
    rw [getHist]
    congr 2
    clear hg
    induction h with
    | nil => rfl
    | cons a _ ih => cases a; rw [List.zipWith_cons_cons, ← ih]
  | cons k ks ih =>
    have h' : List.Forall₂ (fun w bs => ∃ r : (StateData α × Nat × Mem α) × Mem α,
        (StateData.slot k w = .ok r.1 ∧ r.1.1.v.read nb frame k r.1.1.marks numrecs fv r.1.2.2 = .ok r.2) ∧
          histLoop (readLoop nb frame numrecs fv (after r)) ks (after r).bufs = .ok bs) ws bss := by
      refine h.imp fun w bs h => ?_
      rw [histLoop] at h
      obtain ⟨b1, h1, h⟩ := Res.bind_eq_ok.1 h
      obtain ⟨r, h2, rfl⟩ := readLoop_iff.1 h1
      refine ⟨r, h2, ?_⟩
      have e := slot_fst h2.1
      rw [show readLoop nb frame numrecs fv (after r) = readLoop nb frame numrecs fv w by rw [← e]; rfl]
      exact h
    obtain ⟨m, h1, h2⟩ := forall₂_middle h'
    have hsrc : sources (m.map after) = sources ws := by
      clear h h' h2 hg
      induction h1 with
      | nil => rfl
      | cons a _ ih =>
        simp only [List.map_cons, sources] at ih ⊢
        rw [ih, ← slot_fst a.1]; rfl
    rw [getHist_cons hc hg h1, ih (by rw [hsrc]; exact hg) (List.forall₂_map_left_iff.2 h2)]
    congr 2
    clear h h' hsrc hg ih
    induction h1 generalizing bss with
    | nil => cases h2; rfl
    | cons a _ ih =>
      cases h2 with
      | cons b c =>
        simp only [List.map_cons, List.zipWith_cons_cons]
        rw [ih c, ← slot_fst a.1]; rfl

theorem getHist_fails (hc : conv.Faithful) {nb frame numrecs : Int} {fv : FileVar α} {ks : List Nat}
    {ws ws' : List (StateData α)} (hg : Good (sources ws) fv) (h : (getHist conv nb frame numrecs fv ks false ws).1 = .ok ws') :
    ∃ bss, List.Forall₂ (fun w bs => histLoop (readLoop nb frame numrecs fv w) ks w.bufs = .ok bs) ws bss := by
  induction ks generalizing ws with
  | nil =>
    refine ⟨ws.map StateData.bufs, ?_⟩
    rw [List.forall₂_map_right_iff, List.forall₂_same]
    exact fun _ _ => rfl
  | cons k ks ih =>
    have hm : ∃ m : List ((StateData α × Nat × Mem α) × Mem α), List.Forall₂ (fun w r => StateData.slot k w = .ok r.1 ∧
      r.1.1.v.read nb frame k r.1.1.marks numrecs fv r.1.2.2 = .ok r.2) ws m := by
      rw [getHist] at h
      cases h0 : mapRes (StateData.slot k) ws with
      | throw e => rw [h0] at h; cases h
      | ub => rw [h0] at h; cases h
      | ok rs =>
        rw [h0] at h
        dsimp only at h
        have h0' := mapRes_iff.1 h0
        have hs : (rs.map (fun r => (r.1.v, r.1.marks, r.2.2))).map Prod.fst = sources ws := by
          clear h0 hg h
          induction h0' with
          | nil => rfl
          | cons a _ ih =>
            simp only [List.map_cons, sources] at ih ⊢
            rw [ih, slot_fst a]
        rcases hp : getCall conv false nb frame k numrecs fv (rs.map fun r => (r.1.v, r.1.marks, r.2.2)) with ⟨j, i⟩
        rw [hp] at h
        cases j with
        | throw e => cases h
        | ub => cases h
        | apart => cases h
        | ok bs =>
          have h1 := (getCall_iff hc (by rw [hs]; exact hg)).1 (congrArg Prod.fst hp)
          rw [List.forall₂_map_left_iff] at h1
          refine ⟨rs.zip bs, ?_⟩
          clear h hp h0 hs hg
          induction h0' generalizing bs with
          | nil => cases h1; exact .nil
          | cons a _ ih =>
            cases h1 with
            | cons b c => exact .cons ⟨a, b⟩ (ih _ c)
    obtain ⟨m, h1⟩ := hm
    have hsrc : sources (m.map after) = sources ws := by
      clear h hg
      induction h1 with
      | nil => rfl
      | cons a _ ih =>
        simp only [List.map_cons, sources] at ih ⊢
        rw [ih, ← slot_fst a.1]; rfl
    rw [getHist_cons hc hg h1] at h
    obtain ⟨bss, h2⟩ := ih (by rw [hsrc]; exact hg) h
    refine ⟨bss, ?_⟩
    refine (forall₂_compose h1 (List.forall₂_map_left_iff.1 h2)).imp fun w bs h => ?_
    obtain ⟨r, h3, h4⟩ := h
    rw [histLoop]
    show (readLoop nb frame numrecs fv w k w.bufs).bind _ = _
    rw [readLoop_iff.2 ⟨r, h3, rfl⟩]
    have e := slot_fst h3.1
    rw [show readLoop nb frame numrecs fv (after r) = readLoop nb frame numrecs fv w by rw [← e]; rfl] at h4
    exact h4

end
end Verif.NetCDF
