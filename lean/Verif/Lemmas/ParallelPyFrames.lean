import Verif.Spec.ParallelPyFrames
import Verif.Lemmas.PyFrames
import Verif.Lemmas.CollectiveFrames
/-
Lemmas for C107.
-/
namespace Verif.Props
open Verif Verif.Ccoord Verif.Layout Verif.Layout.FieldLayout Verif.RawMemory Verif.FileIO Verif.NetCDF

section
variable {α : Type} {D : FileDesc} {P : Program} {vars : List SessVar} {hidden : String → Option (List Var)} {mode : OpenMode}
  {I : Sess → NcFile α → (String → Prop) → Prop} {late : Bool} {conv : Conv α} {convI : Conv Int}

/-- A program in the parallel build that is where it is in the serial build. -/
def inPar (s : PyFrames α) : ParPyFrames α := ⟨⟨s.world, false⟩, s.frames, s.iters⟩

theorem onEach_eq (r : Res (PyFrameOut Int)) : onEach r = allGet r := by cases r <;> rfl

structure PyBoth (D : FileDesc) (P : Program) (vars : List SessVar) (hidden : String → Option (List Var)) (mode : OpenMode)
    (I : Sess → NcFile α → (String → Prop) → Prop) (s : PyFrames α) (t : FrameTable (Values α)) : Prop where
  both : BothReady D P vars hidden mode I s.world t.table
  frames : s.frames = t.rows.map Int.ofNat
  iters : List.Forall₂ (Left t.table.nb) s.iters t.rest

theorem PyBoth.agree {s : PyFrames α} {t : FrameTable (Values α)} (h : PyBoth D P vars hidden mode I s t) :
    PyAgree D P vars hidden mode I s t := ⟨h.both.agree, h.frames, h.iters⟩

theorem py_both_step (hreg : Registered D P vars hidden) (hE : EntryLaw vars hidden mode (marksFor D P) I) (hc : conv.Faithful)
    (hcI : convI.Faithful) {x : PyFrameStep (Memory α)} {y : PyFrameStep (String → Values α)}
    (hs : SameStep (fun mem c => ∀ x ∈ vars, VarHolds P x (mem x.name) (c x.name)) x y)
    (hhid : x.Uses fun u => NoHidden vars hidden (u.op (C := Memory α) 0))
    (hro : mode = .read → x.Uses fun u => Refused vars (u.op (C := Memory α) 0)) {s : PyFrames α} {t : FrameTable (Values α)}
    (hfit : t.Fit late (vars.map SessVar.name) y) (h : PyBoth D P vars hidden mode I s t) :
    (inPar s).step conv convI x = (allGet (s.step x).1, inPar (s.step x).2) ∧
      Gives (s.step x).1 (t.step late (vars.map SessVar.name) y).1 ∧
      PyBoth D P vars hidden mode I (s.step x).2 (t.step late (vars.map SessVar.name) y).2 := by
  obtain ⟨k1, k2⟩ := py_agree_step hreg hE hs hhid hro hfit h.agree
  have hnn := h.both.inv.nonneg
  suffices (inPar s).step conv convI x = (allGet (s.step x).1, inPar (s.step x).2) ∧ ParWorld.Ready ⟨(s.step x).2.world, false⟩ from
    ⟨this.1, k1, ⟨k2.agree.inv, k2.agree.holds, this.2⟩, k2.frames, k2.iters⟩
  cases hs with
  | use k u =>
    obtain ⟨row, hr, hf⟩ := hfit
    have hr' : s.frames[k]? = some (row : Int) := by rw [h.frames, List.getElem?_map, hr]; rfl
    obtain ⟨b1, b2⟩ := par_step_both hreg hE hc hcI (use_same u (row : Int)) (use_noHidden hhid) (fun e => use_refused (hro e)) hf
      (use_inReach hnn u row) h.both
    rw [SameInBoth] at b1
    simp only [ParPyFrames.step, PyFrames.step, inPar, hr', b1]
    refine ⟨?_, b2.ready⟩
    cases (s.world.step (u.op (row : Int))).1 <;> rfl
  | append =>
    obtain ⟨-, b2⟩ := par_step_both hreg hE hc hcI (SameOp.appendFrame) trivial (fun _ => trivial) trivial trivial h.both
    exact ⟨by simp only [ParPyFrames.step, onEach_eq]; rfl, by simp only [PyFrames.step, (bound_world _ _).1]; exact b2.ready⟩
  | compute hcmp =>
    obtain ⟨-, b2⟩ := par_step_both hreg hE hc hcI (SameOp.compute hcmp) trivial (fun _ => trivial) trivial trivial h.both
    exact ⟨by simp only [ParPyFrames.step, onEach_eq]; rfl, b2.ready⟩
  | len => exact ⟨by simp only [ParPyFrames.step, onEach_eq]; rfl, h.both.ready⟩
  | iter => exact ⟨by simp only [ParPyFrames.step, onEach_eq]; rfl, h.both.ready⟩
  | reversed => exact ⟨by simp only [ParPyFrames.step, onEach_eq]; rfl, h.both.ready⟩
  | getitem i =>
    refine ⟨by simp only [ParPyFrames.step, onEach_eq]; rfl, ?_⟩
    have : (s.step (.getitem i)).2.world = s.world := by
      simp only [PyFrames.step]
      split <;> rw [(bound_world ..).1]
    rw [this]
    exact h.both.ready
  | next k =>
    refine ⟨by simp only [ParPyFrames.step, onEach_eq]; rfl, ?_⟩
    have : (s.step (.next k)).2.world = s.world := by
      simp only [PyFrames.step]
      split
      · rfl
      · rw [(bound_world ..).1]
    rw [this]
    exact h.both.ready

theorem py_both_run (hreg : Registered D P vars hidden) (hE : EntryLaw vars hidden mode (marksFor D P) I) (hc : conv.Faithful)
    (hcI : convI.Faithful) {xs : List (PyFrameStep (Memory α))} {ys : List (PyFrameStep (String → Values α))}
    (hs : List.Forall₂ (SameStep (fun mem c => ∀ x ∈ vars, VarHolds P x (mem x.name) (c x.name))) xs ys)
    (hhid : ∀ x ∈ xs, x.Uses fun u => NoHidden vars hidden (u.op (C := Memory α) 0))
    (hro : mode = .read → ∀ x ∈ xs, x.Uses fun u => Refused vars (u.op (C := Memory α) 0)) {s : PyFrames α}
    {t : FrameTable (Values α)} (hfit : t.Fits late (vars.map SessVar.name) ys) (h : PyBoth D P vars hidden mode I s t) :
    (inPar s).run conv convI xs = ((s.run xs).1.map allGet, inPar (s.run xs).2) := by
  induction hs generalizing s t with
  | nil => rfl
  | @cons x y xs ys hxy _ ih =>
    obtain ⟨k1, k2, k3⟩ := py_both_step (conv := conv) (convI := convI) hreg hE hc hcI hxy (hhid _ (List.mem_cons_self ..))
      (fun e => hro e _ (List.mem_cons_self ..)) hfit.1 h
    have k4 := ih (fun x hx => hhid x (List.mem_cons_of_mem _ hx)) (fun e x hx => hro e x (List.mem_cons_of_mem _ hx)) hfit.2 k3
    rw [ParPyFrames.run, k1, PyFrames.run]
    dsimp only
    rw [k4]
    cases (s.step x).1 <;> rfl

end

/-! ### Collective calls -/

section
variable {α : Type} {conv : Conv α} {convI : Conv Int} {n : Nat}

theorem py_calls_step {s : ParPyFrames α} (h : s.world.Matched n) {x : PyFrameStep (Memory α)}
    (ho : x.Uses fun u => NoHidden s.world.sess.vars s.world.sess.hidden (u.op (C := Memory α) 0))
    (hs : x.Computes (MemoryOf n (s.world.sess.vars.map SessVar.name))) :
    Kept n s.world (s.step conv convI x).2.world ∧
      ((s.step conv convI x).1.Agreed → Same n fun i => s.stepTrace conv convI i x) := by
  cases x with
  | use k u =>
    simp only [ParPyFrames.step, ParPyFrames.stepTrace]
    cases s.frames[k]? with
    | none => exact ⟨Kept.refl _, fun ha => absurd ha id⟩
    | some fr =>
      have h1 : CallsKept n s.world (s.world.step conv convI (u.op fr)) fun i => s.world.stepTrace conv convI i (u.op fr) :=
        calls_step h (use_noHidden ho) (by cases u <;> trivial)
      refine ⟨h1.kept, fun ha => h1.same ?_⟩
      revert ha
      dsimp only
      cases (s.world.step conv convI (u.op fr)).1 <;> exact id
  | append => exact ⟨kept_same rfl rfl rfl rfl, fun _ => Same.nil n⟩
  | compute mem =>
    have h1 : CallsKept n s.world (s.world.step conv convI (.compute mem)) fun i => s.world.stepTrace conv convI i (.compute mem) :=
      calls_step h trivial hs
    exact ⟨h1.kept, fun _ => Same.nil n⟩
  | len => exact ⟨Kept.refl _, fun _ => Same.nil n⟩
  | iter => exact ⟨Kept.refl _, fun _ => Same.nil n⟩
  | reversed => exact ⟨Kept.refl _, fun _ => Same.nil n⟩
  | getitem i =>
    refine ⟨?_, fun _ => Same.nil n⟩
    simp only [ParPyFrames.step, PyFrames.step]
    split <;> rw [(bound_world ..).1] <;> exact kept_same rfl rfl rfl rfl
  | next k =>
    refine ⟨?_, fun _ => Same.nil n⟩
    simp only [ParPyFrames.step, PyFrames.step]
    split
    · exact kept_same rfl rfl rfl rfl
    · rw [(bound_world ..).1]; exact kept_same rfl rfl rfl rfl

theorem py_calls_run (xs : List (PyFrameStep (Memory α))) (s : ParPyFrames α) (h : s.world.Matched n)
    (ho : ∀ x ∈ xs, x.Uses fun u => NoHidden s.world.sess.vars s.world.sess.hidden (u.op (C := Memory α) 0))
    (hs : ∀ x ∈ xs, x.Computes (MemoryOf n (s.world.sess.vars.map SessVar.name)))
    (ha : ∀ o ∈ (s.run conv convI xs).1, o.Agreed) : Same n fun i => ParPyFrames.runTrace conv convI i s xs := by
  induction xs generalizing s with
  | nil => exact Same.nil n
  | cons x xs ih =>
    obtain ⟨k1, k2⟩ := py_calls_step (conv := conv) (convI := convI) h (ho x (List.mem_cons_self ..)) (hs x (List.mem_cons_self ..))
    have ih := ih (s.step conv convI x).2 (k1.matched h)
      (by rw [k1.vars, k1.hidden]; exact fun x hx => ho x (List.mem_cons_of_mem _ hx))
      (by rw [k1.vars]; exact fun x hx => hs x (List.mem_cons_of_mem _ hx))
    rw [ParPyFrames.run] at ha
    simp only [ParPyFrames.runTrace]
    generalize s.step conv convI x = r at k1 k2 ih ha
    obtain ⟨j, s'⟩ := r
    cases j with
    | apart => exact absurd (ha .apart (by simp)) id
    | ok o =>
      dsimp only at ha ⊢
      exact (k2 trivial).append (ih fun o ho => ha o (List.mem_cons_of_mem _ ho))
    | throw e =>
      dsimp only at ha ⊢
      exact (k2 trivial).append (ih fun o ho => ha o (List.mem_cons_of_mem _ ho))
    | ub => exact absurd (ha .ub (by simp)) id

end
end Verif.Props
