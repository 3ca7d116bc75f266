import Verif.Model.RuntimeUnion
/-
C88: whatever is assigned to a `RuntimeValue`, it holds the value assigned last, and the map or matrix it held before is
destroyed exactly once.
-/
namespace Verif.Props
open Verif Verif.RuntimeUnion

variable {D R : Type}

/-- What a user reads from a `RuntimeValue` that holds `a`: the getter of its type gives the value, the others throw. -/
def HoldsArg (v : Value D R) (a : Arg D R) : Prop :=
  v.tag = a.tag ∧
  getInt v = (match a with | .int i => .ok i | _ => .throw .valueError) ∧
  getReal v = (match a with | .real r => .ok r | _ => .throw .valueError) ∧
  getMatrix v = (match a with | .mat m => .ok m | _ => .throw .valueError) ∧
  getMap v = (match a with | .dict d => .ok d | _ => .throw .valueError)

/-- The destructor is defined, and after it every map and matrix constructed has been destroyed, none twice. -/
def Frees (v : Value D R) : Prop :=
  ∃ w, destroy v = .ok w ∧ w.made = w.destroyed

/-- A value that is not a map. -/
def NotMap : Arg D R → Prop
  | .dict _ => False
  | _ => True

/-- A number. -/
def IsNumber : Arg D R → Prop
  | .int _ => True
  | .real _ => True
  | _ => False

/-- The value after assignments of the values `as` to one constructed from `a`. -/
def lastOf (a : Arg D R) (as : List (Arg D R)) : Arg D R := as.getLast?.getD a

/-- C88 in full: values of every type may be assigned in every order. -/
def C88_statement : Prop :=
  ∀ (a : Arg Unit Int) (as : List (Arg Unit Int)),
    ∃ v, run (construct a) (as.map .value) = .ok v ∧ HoldsArg v (lastOf a as) ∧ Frees v

/-- It is false: assigning a map to a number uses a map that was never constructed. -/
theorem C88_false : ¬ C88_statement := by
  intro h
  obtain ⟨v, hv, -⟩ := h (.int 3) [.dict ()]
  exact absurd hv (by intro h; cases h)

/-- The memory holds what the tag says, and the counts differ by the object that is alive. -/
private def Sound (v : Value D R) (a : Arg D R) : Prop :=
  match a with
  | .dict d => v.tag = .dictionary ∧ v.store = .dict d ∧ v.made = v.destroyed + 1
  | .int i => v.tag = .int ∧ v.store = .int i ∧ v.made = v.destroyed
  | .real r => v.tag = .real ∧ v.store = .real r ∧ v.made = v.destroyed
  | .mat m => v.tag = .matrix ∧ v.store = .mat m ∧ v.made = v.destroyed + 1

private theorem sound_construct (a : Arg D R) : Sound (construct a) a := by
  cases a <;> simp [Sound, construct]

private theorem Sound.holds {v : Value D R} {a : Arg D R} (h : Sound v a) : HoldsArg v a := by
  obtain ⟨t, s, m, n⟩ := v
  cases a <;> obtain ⟨rfl, rfl, -⟩ := h <;> simp [HoldsArg, Arg.tag, getInt, getReal, getMatrix, getMap]

/-- What remains in the memory after the destructor. -/
private def left : Arg D R → Store D R
  | .int i => .int i
  | .real r => .real r
  | _ => .dead

private theorem Sound.destroy {v : Value D R} {a : Arg D R} (h : Sound v a) :
    ∃ w, RuntimeUnion.destroy v = .ok w ∧ w.made = w.destroyed ∧ w.tag = a.tag ∧
      w.store = left a := by
  obtain ⟨t, s, m, n⟩ := v
  cases a <;> simp only [Sound] at h <;> obtain ⟨rfl, rfl, hm⟩ := h <;>
    exact ⟨_, rfl, by simpa using hm, rfl, rfl⟩

private theorem Sound.step {v : Value D R} {a b : Arg D R} (h : Sound v a) (hb : NotMap b) :
    ∃ w, RuntimeUnion.step v (.value b) = .ok w ∧ Sound w b := by
  obtain ⟨w, hw, hc, -, -⟩ := h.destroy
  cases b with
  | dict d => exact hb.elim
  | int i => exact ⟨{ w with store := .int i, tag := .int }, by simp [RuntimeUnion.step, assignInt, hw, Res.bind], rfl, rfl, hc⟩
  | real r => exact ⟨{ w with store := .real r, tag := .real }, by simp [RuntimeUnion.step, assignReal, hw, Res.bind], rfl, rfl, hc⟩
  | mat m =>
    exact ⟨{ w with store := .mat m, tag := .matrix, made := w.made + 1 }, by simp [RuntimeUnion.step, assignMat, hw],
      rfl, rfl, by simp [hc]⟩

private theorem sound_run (as : List (Arg D R)) : ∀ {v : Value D R} {a : Arg D R}, Sound v a → (∀ b ∈ as, NotMap b) →
    ∃ w, run v (as.map .value) = .ok w ∧ Sound w (lastOf a as) := by
  induction as with
  | nil => intro v a h _; exact ⟨v, rfl, h⟩
  | cons b as ih =>
    intro v a h hs
    obtain ⟨w, hw, hb⟩ := h.step (hs b (by simp))
    obtain ⟨u, hu, hl⟩ := ih hb (fun c hc => hs c (by simp [hc]))
    refine ⟨u, by simp [run, hw, Res.bind, hu], ?_⟩
    cases as <;> simpa [lastOf, List.getLast?_cons] using hl

/-- Assignments of numbers and matrices, in every order and number, to a value of every type: the last one is read back, and
nothing is lost or destroyed twice.  Missing: assigned maps, which `C88_map_undefined` shows to be undefined. -/
theorem C88_assign_partial (a : Arg D R) (as : List (Arg D R)) (h : ∀ b ∈ as, NotMap b) :
    ∃ v, run (construct a) (as.map .value) = .ok v ∧ HoldsArg v (lastOf a as) ∧ Frees v := by
  obtain ⟨v, hv, hs⟩ := sound_run as (sound_construct a) h
  obtain ⟨w, hw, hc, -⟩ := hs.destroy
  exact ⟨v, hv, hs.holds, w, hw, hc⟩

/-- A map assigned after any such assignments is undefined, whatever the value holds, a map included. -/
theorem C88_map_undefined (a : Arg D R) (as : List (Arg D R)) (h : ∀ b ∈ as, NotMap b) (d : D) :
    run (construct a) (as.map .value ++ [.value (.dict d)]) = .ub := by
  have key : ∀ (as : List (Arg D R)) (v : Value D R) (a : Arg D R), Sound v a → (∀ b ∈ as, NotMap b) →
      run v (as.map .value ++ [.value (.dict d)]) = .ub := by
    intro as
    induction as with
    | nil =>
      intro v a hv _
      obtain ⟨w, hw, -, -, hst⟩ := hv.destroy
      cases a <;> simp [run, RuntimeUnion.step, assignMap, hw, hst, left, Res.bind]
    | cons b as ih =>
      intro v a hv hs
      obtain ⟨w, hw, hb⟩ := hv.step (hs b (by simp))
      simp only [List.map_cons, List.cons_append, run, hw, Res.bind]
      exact ih w b hb (fun c hc => hs c (by simp [hc]))
  exact key as _ a (sound_construct a) h

/-- Assignment of another `RuntimeValue`, both made by assignments as above: it is defined exactly if the other one holds a
number, and then gives a copy; with a map or a matrix it is undefined. -/
theorem C88_copy (a b : Arg D R) (as bs : List (Arg D R)) (ha : ∀ c ∈ as, NotMap c) (hb : ∀ c ∈ bs, NotMap c) :
    ∃ v o, run (construct a) (as.map .value) = .ok v ∧ run (construct b) (bs.map .value) = .ok o ∧
      (IsNumber (lastOf b bs) → ∃ w, step v (.other o) = .ok w ∧ HoldsArg w (lastOf b bs) ∧ Frees w) ∧
      (¬ IsNumber (lastOf b bs) → step v (.other o) = .ub) := by
  obtain ⟨v, hv, hs⟩ := sound_run as (sound_construct a) ha
  obtain ⟨o, ho, hso⟩ := sound_run bs (sound_construct b) hb
  obtain ⟨w, hw, hc, -, hst⟩ := hs.destroy
  refine ⟨v, o, hv, ho, ?_, ?_⟩
  · intro hn
    have : ∃ u, step v (.other o) = .ok u ∧ Sound u (lastOf b bs) := by
      revert hso hn
      cases lastOf b bs with
      | dict d => intro _ hn; exact hn.elim
      | mat m => intro _ hn; exact hn.elim
      | int i =>
        rintro ⟨h1, h2, -⟩ -
        exact ⟨{ w with store := .int i, tag := .int }, by simp [RuntimeUnion.step, assignValue, hw, h1, h2, Res.bind],
          rfl, rfl, hc⟩
      | real r =>
        rintro ⟨h1, h2, -⟩ -
        exact ⟨{ w with store := .real r, tag := .real }, by simp [RuntimeUnion.step, assignValue, hw, h1, h2, Res.bind],
          rfl, rfl, hc⟩
    obtain ⟨u, hu, hus⟩ := this
    obtain ⟨x, hx, hxc, -⟩ := hus.destroy
    exact ⟨u, hu, hus.holds, x, hx, hxc⟩
  · intro hn
    revert hso hn
    cases lastOf b bs with
    | int i => intro _ hn; exact (hn trivial).elim
    | real r => intro _ hn; exact (hn trivial).elim
    | dict d =>
      rintro ⟨h1, h2, -⟩ -
      revert hst
      cases lastOf a as <;> intro hst <;> simp [RuntimeUnion.step, assignValue, hw, h1, h2, hst, left, Res.bind]
    | mat m =>
      rintro ⟨h1, h2, -⟩ -
      revert hst
      cases lastOf a as <;> intro hst <;> simp [RuntimeUnion.step, assignValue, hw, h1, h2, hst, left, Res.bind]

/-- Assignment of a value to itself changes nothing if it holds a number and is undefined otherwise. -/
theorem C88_self (a : Arg D R) (as : List (Arg D R)) (h : ∀ b ∈ as, NotMap b) :
    ∃ v, run (construct a) (as.map .value) = .ok v ∧
      (IsNumber (lastOf a as) → step v .self = .ok v) ∧ (¬ IsNumber (lastOf a as) → step v .self = .ub) := by
  obtain ⟨v, hv, hs⟩ := sound_run as (sound_construct a) h
  refine ⟨v, hv, ?_, ?_⟩ <;> revert hs <;> obtain ⟨t, s, m, n⟩ := v <;> cases lastOf a as <;>
    rintro ⟨rfl, rfl, -⟩ <;> simp [IsNumber, RuntimeUnion.step, assignSelf, RuntimeUnion.destroy, Res.bind]

/-- A matrix assigned when memory runs out throws.  A number is still there afterwards; a map or matrix has been destroyed, but
the tag remains, so that the destructor destroys it again, which is undefined. -/
theorem C88_memory (a : Arg D R) (as : List (Arg D R)) (h : ∀ b ∈ as, NotMap b) (m : List (List R)) :
    ∃ v w, run (construct a) (as.map .value) = .ok v ∧ assignMat v m false = (.throw .runtimeError, w) ∧
      (IsNumber (lastOf a as) → HoldsArg w (lastOf a as) ∧ Frees w) ∧
      (¬ IsNumber (lastOf a as) → destroy w = .ub) := by
  obtain ⟨v, hv, hs⟩ := sound_run as (sound_construct a) h
  obtain ⟨w, hw, hc, ht, hst⟩ := hs.destroy
  refine ⟨v, w, hv, by simp [assignMat, hw], ?_, ?_⟩
  · intro hn
    have hsw : Sound w (lastOf a as) := by
      revert hn ht hst
      cases lastOf a as with
      | dict d => intro _ _ hn; exact hn.elim
      | mat m => intro _ _ hn; exact hn.elim
      | int i => intro ht hst _; exact ⟨ht, hst, hc⟩
      | real r => intro ht hst _; exact ⟨ht, hst, hc⟩
    obtain ⟨x, hx, hxc, -⟩ := hsw.destroy
    exact ⟨hsw.holds, x, hx, hxc⟩
  · intro hn
    revert hn ht hst
    cases lastOf a as with
    | int i => intro _ _ hn; exact (hn trivial).elim
    | real r => intro _ _ hn; exact (hn trivial).elim
    | dict d => intro ht hst _; simp [RuntimeUnion.destroy, ht, hst, left, Arg.tag]
    | mat m => intro ht hst _; simp [RuntimeUnion.destroy, ht, hst, left, Arg.tag]

/-- A map, replaced by a matrix, a number and another matrix. -/
def exArgs : List (Arg Unit Int) := [.mat [[1, 2], [3, 4]], .real 7, .int 5, .mat [[6]]]

example : ∀ b ∈ exArgs, NotMap b := by simp [exArgs, NotMap]
example : run (construct (.dict ())) (exArgs.map .value) = .ok ⟨.matrix, .mat [[6]], 3, 2⟩ := by decide +kernel
example : lastOf (.dict ()) exArgs = .mat [[6]] := by decide
example : run (construct (.dict ())) (exArgs.map .value ++ [.value (.dict ())]) = .ub := C88_map_undefined _ _ (by simp [exArgs, NotMap]) _
/-- Copying a number onto the matrix is defined, copying the matrix is not. -/
example : IsNumber (lastOf (.dict ()) (exArgs.take 3)) ∧ ¬ IsNumber (lastOf (.dict ()) exArgs) := by
  simp [exArgs, lastOf, IsNumber]
example : (assignMat (construct (.mat [[1]] : Arg Unit Int)) [[2]] false).2 = ⟨.matrix, .dead, 1, 1⟩ := by decide +kernel

example : ∃ v, run (construct (.dict ())) (exArgs.map .value) = .ok v ∧ HoldsArg v (.mat [[6]]) ∧ Frees v :=
  C88_assign_partial (.dict ()) exArgs (by simp [exArgs, NotMap])
/-- The fourth value copied from one that holds the number 5. -/
example : ∃ v o w, run (construct (.dict ())) (exArgs.map .value) = .ok v ∧
    run (construct (.dict ())) ((exArgs.take 3).map .value) = .ok o ∧ step v (.other o) = .ok w ∧
    HoldsArg w (.int 5) ∧ Frees w := by
  obtain ⟨v, o, h1, h2, h3, -⟩ := C88_copy (.dict ()) (.dict ()) exArgs (exArgs.take 3) (by simp [exArgs, NotMap])
    (by simp [exArgs, NotMap])
  obtain ⟨w, h4, h5, h6⟩ := h3 (by simp [exArgs, lastOf, IsNumber])
  exact ⟨v, o, w, h1, h2, h4, h5, h6⟩
example : ∃ v, run (construct (.dict ())) (exArgs.map .value) = .ok v ∧ step v .self = .ub := by
  obtain ⟨v, h1, -, h2⟩ := C88_self (.dict ()) exArgs (by simp [exArgs, NotMap])
  exact ⟨v, h1, h2 (by simp [exArgs, lastOf, IsNumber])⟩
example : ∃ v w, run (construct (.dict ())) (exArgs.map .value) = .ok v ∧
    assignMat v [[1]] false = (.throw .runtimeError, w) ∧ destroy w = .ub := by
  obtain ⟨v, w, h1, h2, -, h3⟩ := C88_memory (.dict ()) exArgs (by simp [exArgs, NotMap]) [[1]]
  exact ⟨v, w, h1, h2, h3 (by simp [exArgs, lastOf, IsNumber])⟩

end Verif.Props
