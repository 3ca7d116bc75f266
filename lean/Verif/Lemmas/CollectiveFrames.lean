import Verif.Spec.CollectiveFrames
import Verif.Lemmas.CollectiveWorld
import Verif.Lemmas.ParallelFrames
/-
Lemmas for C105.
-/
namespace Verif.Props
open Verif Verif.FileIO Verif.NetCDF

variable {α : Type} {conv : Conv α} {convI : Conv Int} {n : Nat}

/-- A part of a program after which there is the same to say, and all processes make the same calls in it if they end in the same
way. -/
structure CallsKept (n : Nat) (p : ParWorld α) (r : Joint Unit × ParWorld α) (t : Nat → List CollCall) : Prop where
  kept : Kept n p r.2
  same : r.1.Agreed → Same n t

theorem CallsKept.next {p : ParWorld α} {r : Joint Unit × ParWorld α} {t : Nat → List CollCall}
    {f : ParWorld α → Joint Unit × ParWorld α} {u : Nat → ParWorld α → List CollCall} (h : CallsKept n p r t)
    (hf : CallsKept n r.2 (f r.2) fun i => u i r.2) : CallsKept n p (Joint.next r f) fun i => Joint.nextTrace (t i) r (u i) := by
  obtain ⟨j, q⟩ := r
  cases j with
  | ok x => exact ⟨h.kept.trans hf.kept, fun ha => (h.same trivial).append (hf.same ha)⟩
  | throw e => exact ⟨h.kept, fun _ => (h.same trivial).append (Same.nil n)⟩
  | ub => exact ⟨h.kept, fun ha => absurd ha id⟩
  | apart => exact ⟨h.kept, fun ha => absurd ha id⟩

theorem calls_step {p : ParWorld α} (h : p.Matched n) {op : FileOp (Memory α)} (ho : NoHidden p.sess.vars p.sess.hidden op)
    (hs : op.Sized n (p.sess.vars.map SessVar.name)) :
    CallsKept n p (p.step conv convI op) fun i => p.stepTrace conv convI i op :=
  ⟨step_kept ho hs, fun ha => stepTrace_same h ho ha⟩

theorem calls_loop {body : Int → ParWorld α → Joint Unit × ParWorld α} {calls : Nat → Int → ParWorld α → List CollCall} {p0 : ParWorld α}
    (hb : ∀ fr p, Kept n p0 p → CallsKept n p (body fr p) fun i => calls i fr p) (stop : Int) (m : Nat) (k : Int) (p : ParWorld α)
    (h : Kept n p0 p) : CallsKept n p (forFramesPar body stop m k p) fun i => forFramesTrace body (calls i) stop m k p := by
  induction m generalizing k p with
  | zero =>
    unfold forFramesPar forFramesTrace
    split
    · exact ⟨Kept.refl p, fun _ => Same.nil n⟩
    · exact ⟨Kept.refl p, fun _ => Same.nil n⟩
  | succ m ih =>
    unfold forFramesPar forFramesTrace
    split
    · exact ⟨Kept.refl p, fun _ => Same.nil n⟩
    · cases frameAt p.sess.nbFrames k with
      | ok fr =>
        have h1 := hb fr p h
        exact h1.next (u := fun i => forFramesTrace body (calls i) stop m (k + 1)) (ih (k + 1) _ (h.trans h1.kept))
      | throw e => exact ⟨Kept.refl p, fun _ => Same.nil n⟩
      | ub => exact ⟨Kept.refl p, fun _ => Same.nil n⟩

theorem calls_exec (q : FrameProg (Memory α)) (env : List Int) (p : ParWorld α) (h : p.Matched n)
    (ho : q.Uses fun u => NoHidden p.sess.vars p.sess.hidden (u.op (C := Memory α) 0))
    (hs : q.Computes (MemoryOf n (p.sess.vars.map SessVar.name))) :
    CallsKept n p (ParWorld.exec conv convI q env p) fun i => ParWorld.execTrace conv convI i q env p := by
  induction q generalizing env p with
  | done => exact ⟨Kept.refl p, fun _ => Same.nil n⟩
  | take k q ih =>
    simp only [ParWorld.exec, ParWorld.execTrace]
    cases frameAt p.sess.nbFrames k with
    | ok fr => exact ih _ p h ho hs
    | throw e => exact ⟨Kept.refl p, fun _ => Same.nil n⟩
    | ub => exact ⟨Kept.refl p, fun _ => Same.nil n⟩
  | append q ih =>
    simp only [ParWorld.exec, ParWorld.execTrace]
    have h1 : CallsKept n p (p.step conv convI .appendFrame) fun i => p.stepTrace conv convI i .appendFrame :=
      calls_step h trivial trivial
    have h2 := ih ((appendFrame p.sess.nbFrames).1 :: env) (p.step conv convI .appendFrame).2 (h1.kept.matched h)
      (by rw [h1.kept.vars, h1.kept.hidden]; exact ho) (by rw [h1.kept.vars]; exact hs)
    exact ⟨h1.kept.trans h2.kept, fun ha => (h1.same trivial).append (h2.same ha)⟩
  | use k u q ih =>
    simp only [ParWorld.exec, ParWorld.execTrace]
    cases env[k]? with
    | none => exact ⟨Kept.refl p, fun ha => absurd ha id⟩
    | some fr =>
      have h1 : CallsKept n p (p.step conv convI (u.op fr)) fun i => p.stepTrace conv convI i (u.op fr) :=
        calls_step h (use_noHidden ho.1) (by cases u <;> trivial)
      exact h1.next (u := fun i => ParWorld.execTrace conv convI i q env) (ih env _ (h1.kept.matched h)
        (by rw [h1.kept.vars, h1.kept.hidden]; exact ho.2) (by rw [h1.kept.vars]; exact hs))
  | compute mem q ih =>
    simp only [ParWorld.exec, ParWorld.execTrace]
    have h1 : CallsKept n p (p.step conv convI (.compute mem)) fun i => p.stepTrace conv convI i (.compute mem) :=
      calls_step h trivial hs.1
    exact h1.next (u := fun i => ParWorld.execTrace conv convI i q env) (ih env _ (h1.kept.matched h)
      (by rw [h1.kept.vars, h1.kept.hidden]; exact ho) (by rw [h1.kept.vars]; exact hs.2))
  | forEach body q ihb ih =>
    simp only [ParWorld.exec, ParWorld.execTrace]
    have h1 := calls_loop (n := n) (body := fun fr => ParWorld.exec conv convI body (fr :: env))
      (calls := fun i fr => ParWorld.execTrace conv convI i body (fr :: env)) (p0 := p)
      (fun fr p' hk => ihb (fr :: env) p' (hk.matched h) (by rw [hk.vars, hk.hidden]; exact ho.1) (by rw [hk.vars]; exact hs.1))
      (size p.sess.nbFrames) (size p.sess.nbFrames).toNat 0 p (Kept.refl p)
    exact h1.next (u := fun i => ParWorld.execTrace conv convI i q env) (ih env _ (h1.kept.matched h)
      (by rw [h1.kept.vars, h1.kept.hidden]; exact ho.2) (by rw [h1.kept.vars]; exact hs.2))
  | attempt body q ihb ih =>
    simp only [ParWorld.exec, ParWorld.execTrace]
    have h1 := ihb env p h ho.1 hs.1
    have h2 := ih env _ (h1.kept.matched h) (by rw [h1.kept.vars, h1.kept.hidden]; exact ho.2) (by rw [h1.kept.vars]; exact hs.2)
    generalize ParWorld.exec conv convI body env p = r at h1 h2
    obtain ⟨j, p'⟩ := r
    cases j with
    | ok x => exact ⟨h1.kept.trans h2.kept, fun ha => (h1.same trivial).append (h2.same ha)⟩
    | throw e => exact ⟨h1.kept.trans h2.kept, fun ha => (h1.same trivial).append (h2.same ha)⟩
    | ub => exact ⟨h1.kept, fun ha => absurd ha id⟩
    | apart => exact ⟨h1.kept, fun ha => absurd ha id⟩

end Verif.Props
