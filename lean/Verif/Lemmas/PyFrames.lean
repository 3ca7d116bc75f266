import Verif.Spec.PyFrames
import Verif.Props.FrameObjects
/-
Lemmas for C106.
-/
namespace Verif.Props
open Verif Verif.Ccoord Verif.Layout Verif.Layout.FieldLayout Verif.RawMemory Verif.FileIO Verif.NetCDF

/-! ### Iterators -/

/-- The frames that an iterator will still give. -/
def Left (nb : Int) : PyIter → List Nat → Prop
  | .forward i stop fresh, l => ∃ j : Nat, (if fresh then i else i + 1) = (j : Int) ∧ stop = j + l.length ∧ l = List.range' j l.length ∧
      stop ≤ nb
  | .backward i, l => i + 1 = l.length ∧ l = (List.range l.length).reverse ∧ i < nb

theorem Left.mono {nb nb' : Int} (hnb : nb ≤ nb') {it : PyIter} {l : List Nat} (h : Left nb it l) : Left nb' it l := by
  cases it with
  | forward i stop fresh =>
    obtain ⟨j, h1, h2, h3, h4⟩ := h
    exact ⟨j, h1, h2, h3, h4.trans hnb⟩
  | backward i => exact ⟨h.1, h.2.1, h.2.2.trans_le hnb⟩

theorem left_iter {nb : Int} (h : 0 ≤ nb) : Left nb (.forward 0 (size nb) true) (List.range nb.toNat) :=
  ⟨0, rfl, by simp [size, h], by rw [List.length_range, List.range_eq_range'], le_refl _⟩

theorem left_reversed {nb : Int} (h : 0 ≤ nb) : Left nb (.backward (size nb - 1)) (List.range nb.toNat).reverse :=
  ⟨by simp [size, h], by rw [List.length_reverse, List.length_range], by simp [size]⟩

theorem next_nil {nb : Int} {it : PyIter} (h : Left nb it []) : (it.next nb).1 = .ok none ∧ Left nb (it.next nb).2 [] := by
  cases it with
  | forward i stop fresh =>
    obtain ⟨j, h1, h2, h3, h4⟩ := h
    simp only [List.length_nil, Nat.cast_zero, add_zero] at h2
    simp only [PyIter.next, h1, h2, if_pos]
    exact ⟨trivial, j, rfl, by simp, rfl, by omega⟩
  | backward i =>
    obtain ⟨h1, h2, h3⟩ := h
    simp only [List.length_nil, Nat.cast_zero] at h1
    simp only [PyIter.next, if_pos (by omega : i < 0)]
    exact ⟨trivial, by simp [h1], rfl, h3⟩

theorem next_cons {nb : Int} {it : PyIter} {row : Nat} {l : List Nat} (h : Left nb it (row :: l)) :
    (it.next nb).1 = .ok (some row) ∧ Left nb (it.next nb).2 l := by
  cases it with
  | forward i stop fresh =>
    obtain ⟨j, h1, h2, h3, h4⟩ := h
    rw [List.length_cons, List.range'_succ, List.cons.injEq] at h3
    obtain ⟨rfl, h3⟩ := h3
    rw [List.length_cons, Nat.cast_add, Nat.cast_one] at h2
    simp only [PyIter.next, h1]
    rw [if_neg (by omega), frameAt_inside (by omega) (by omega)]
    refine ⟨rfl, row + 1, ?_, ?_, h3, h4⟩
    · simp
    · push_cast; omega
  | backward i =>
    obtain ⟨h1, h2, h3⟩ := h
    rw [List.length_cons, List.range_succ, List.reverse_append, List.reverse_singleton, List.singleton_append,
      List.cons.injEq] at h2
    obtain ⟨h2, h2'⟩ := h2
    rw [List.length_cons, Nat.cast_add, Nat.cast_one] at h1
    simp only [PyIter.next]
    rw [if_neg (by omega), frameAt_inside (by omega) (by omega)]
    refine ⟨?_, ?_, h2', ?_⟩
    · show Res.ok (some i) = _
      rw [show i = (row : Int) by omega]
    · omega
    · omega

section
variable {α : Type}

theorem bound_world (s : PyFrames α) (r : Res (Option Int)) : (s.bound r).2.world = s.world ∧ (s.bound r).2.iters = s.iters := by
  unfold PyFrames.bound
  split <;> exact ⟨rfl, rfl⟩

theorem py_step_nb (s : PyFrames α) (x : PyFrameStep (Memory α)) : s.world.sess.nbFrames ≤ (s.step x).2.world.sess.nbFrames := by
  cases x with
  | len => exact le_refl _
  | getitem i =>
    simp only [PyFrames.step]
    split <;> rw [(bound_world ..).1]
  | append =>
    simp only [PyFrames.step, (bound_world _ _).1]
    exact world_step_nb _ _
  | use h u =>
    simp only [PyFrames.step]
    split
    · exact le_refl _
    · exact world_step_nb _ _
  | compute mem => exact world_step_nb _ _
  | iter => exact le_refl _
  | reversed => exact le_refl _
  | next k =>
    simp only [PyFrames.step]
    split
    · exact le_refl _
    · rw [(bound_world ..).1]

/-- A step that is not `next` of an iterator leaves that iterator as it is. -/
theorem py_step_iters (s : PyFrames α) (x : PyFrameStep (Memory α)) {k : Nat} {it : PyIter} (hk : s.iters[k]? = some it)
    (hx : ∀ j, x = .next j → j ≠ k) : (s.step x).2.iters[k]? = some it := by
  have hlt : k < s.iters.length := (List.getElem?_eq_some_iff.1 hk).1
  cases x with
  | len => exact hk
  | getitem i =>
    simp only [PyFrames.step]
    split <;> rw [(bound_world ..).2] <;> exact hk
  | append =>
    simp only [PyFrames.step, (bound_world _ _).2]
    exact hk
  | use h u =>
    simp only [PyFrames.step]
    split <;> exact hk
  | compute mem => exact hk
  | iter =>
    simp only [PyFrames.step]
    rw [List.getElem?_append_left hlt]; exact hk
  | reversed =>
    simp only [PyFrames.step]
    rw [List.getElem?_append_left hlt]; exact hk
  | next j =>
    simp only [PyFrames.step]
    split
    · exact hk
    · rw [(bound_world ..).2]
      show (s.iters.set j _)[k]? = _
      rw [List.getElem?_set_ne (hx j rfl)]; exact hk

/-- What an iterator gives, whatever is done in between. -/
theorem nexts_left (k : Nat) (xs : List (PyFrameStep (Memory α))) : ∀ (s : PyFrames α) (it : PyIter) (l : List Nat),
    s.iters[k]? = some it → Left s.world.sess.nbFrames it l → ∀ (m : Nat) (o : Res (PyFrameOut Int)),
      (nextsOf k xs (s.run xs).1)[m]? = some o → o = match l[m]? with
        | some row => .ok (.frame (row : Int))
        | none => .ok .stop := by
  induction xs with
  | nil => intro s it l hk hl m o h; simp [nextsOf] at h
  | cons x xs ih =>
    intro s it l hk hl m o h
    rw [PyFrames.run] at h
    dsimp only at h
    by_cases hx : ∀ j, x = .next j → j ≠ k
    · have e : nextsOf k (x :: xs) ((s.step x).1 :: (PyFrames.run (s.step x).2 xs).1) = nextsOf k xs (PyFrames.run (s.step x).2 xs).1 := by
        cases x with
        | next j => rw [nextsOf, if_neg (hx j rfl)]
        | _ => rfl
      rw [e] at h
      exact ih _ it l (py_step_iters s x hk hx) (hl.mono (py_step_nb s x)) m o h
    · push Not at hx
      obtain ⟨j, rfl, rfl⟩ := hx
      rw [nextsOf, if_pos rfl] at h
      have hlt : j < s.iters.length := (List.getElem?_eq_some_iff.1 hk).1
      have hnb := py_step_nb s (.next j)
      have e : s.step (.next j) =
          PyFrames.bound { s with iters := s.iters.set j (it.next s.world.sess.nbFrames).2 } (it.next s.world.sess.nbFrames).1 := by
        simp only [PyFrames.step, hk]
      have hk' : (s.step (.next j)).2.iters[j]? = some (it.next s.world.sess.nbFrames).2 := by
        rw [e, (bound_world ..).2]
        show (s.iters.set j _)[j]? = _
        rw [List.getElem?_set_self hlt]
      cases l with
      | nil =>
        obtain ⟨h1, h2⟩ := next_nil hl
        cases m with
        | zero =>
          rw [List.getElem?_cons_zero, Option.some.injEq, e, h1] at h
          rw [← h]; rfl
        | succ m =>
          rw [List.getElem?_cons_succ] at h
          have := ih _ _ [] hk' (h2.mono hnb) m o h
          rw [this]; rfl
      | cons row l =>
        obtain ⟨h1, h2⟩ := next_cons hl
        cases m with
        | zero =>
          rw [List.getElem?_cons_zero, Option.some.injEq, e, h1] at h
          rw [← h]; rfl
        | succ m =>
          rw [List.getElem?_cons_succ] at h
          rw [ih _ _ l hk' (h2.mono hnb) m o h, List.getElem?_cons_succ]

end

/-! ### Programs follow the table -/

section
variable {α : Type} {D : FileDesc} {P : Program} {vars : List SessVar} {hidden : String → Option (List Var)} {mode : OpenMode}
  {I : Sess → NcFile α → (String → Prop) → Prop} {late : Bool}

structure PyAgree (D : FileDesc) (P : Program) (vars : List SessVar) (hidden : String → Option (List Var)) (mode : OpenMode)
    (I : Sess → NcFile α → (String → Prop) → Prop) (s : PyFrames α) (t : FrameTable (Values α)) : Prop where
  agree : Agree D P vars hidden mode I s.world t.table
  frames : s.frames = t.rows.map Int.ofNat
  iters : List.Forall₂ (Left t.table.nb) s.iters t.rest

theorem set_forall₂ {A B : Type} {R : A → B → Prop} {l : List A} {m : List B} (h : List.Forall₂ R l m) {k : Nat} {a : A} {b : B}
    (hab : R a b) : List.Forall₂ R (l.set k a) (m.set k b) := by
  induction h generalizing k with
  | nil => exact .nil
  | cons h1 _ ih =>
    cases k with
    | zero => exact .cons hab (by assumption)
    | succ k => exact .cons h1 ih

theorem py_agree_step (hreg : Registered D P vars hidden) (hE : EntryLaw vars hidden mode (marksFor D P) I)
    {x : PyFrameStep (Memory α)} {y : PyFrameStep (String → Values α)}
    (hs : SameStep (fun mem c => ∀ x ∈ vars, VarHolds P x (mem x.name) (c x.name)) x y)
    (hhid : x.Uses fun u => NoHidden vars hidden (u.op (C := Memory α) 0))
    (hro : mode = .read → x.Uses fun u => Refused vars (u.op (C := Memory α) 0)) {s : PyFrames α} {t : FrameTable (Values α)}
    (hfit : t.Fit late (vars.map SessVar.name) y) (h : PyAgree D P vars hidden mode I s t) :
    Gives (s.step x).1 (t.step late (vars.map SessVar.name) y).1 ∧
      PyAgree D P vars hidden mode I (s.step x).2 (t.step late (vars.map SessVar.name) y).2 := by
  have hnb := h.agree.inv.frames
  have hnn := h.agree.inv.nonneg
  have hiters : ∀ op, List.Forall₂ (Left (t.table.step (vars.map SessVar.name) op).2.nb) s.iters t.rest :=
    fun op => h.iters.imp fun _ _ hl => hl.mono (table_step_nb _ _)
  cases hs with
  | len => exact ⟨hnb, h⟩
  | getitem i =>
    have hk := frameAt_handed hnn hfit
    simp only [PyFrames.step, FrameTable.step, hnb]
    cases hm : handedRow late t.table.nb i with
    | none =>
      rw [hk.2 hm]
      exact ⟨rfl, h⟩
    | some row =>
      obtain ⟨h0, h1⟩ := hk.1 row hm
      rw [h1]
      have e : Int.ofNat row.toNat = row := Int.toNat_of_nonneg h0
      exact ⟨e.symm, h.agree, by simp only [PyFrames.bound, List.map_append, h.frames, List.map_cons, List.map_nil, e], h.iters⟩
  | append =>
    simp only [PyFrames.step, FrameTable.step]
    have k := agree_step hreg hE (SameOp.appendFrame) trivial (fun _ => trivial) trivial h.agree
    have e : Int.ofNat t.table.nb.toNat = t.table.nb := Int.toNat_of_nonneg hnn
    refine ⟨?_, k.2, ?_, hiters _⟩
    · show (appendFrame s.world.sess.nbFrames).1 = _
      rw [appendFrame, hnb]; exact e.symm
    · simp only [PyFrames.bound, List.map_append, h.frames, List.map_cons, List.map_nil, e]
      rw [appendFrame, hnb]
  | use k u =>
    obtain ⟨row, hr, hf⟩ := hfit
    have hr' : s.frames[k]? = some (row : Int) := by rw [h.frames, List.getElem?_map, hr]; rfl
    simp only [PyFrames.step, FrameTable.step, hr, hr']
    have key := agree_step hreg hE (use_same u _) (use_noHidden hhid) (fun e => use_refused (hro e)) hf h.agree
    refine ⟨?_, key.2, h.frames, hiters _⟩
    obtain ⟨k1, -⟩ := key
    cases ho : (s.world.step (u.op (row : Int))).1 with
    | ok a =>
      rw [ho] at k1
      rw [show (t.table.step (vars.map SessVar.name) (u.op (row : Int))).1 = true from k1]
      exact trivial
    | throw e =>
      rw [ho] at k1
      rw [show (t.table.step (vars.map SessVar.name) (u.op (row : Int))).1 = false from k1.2]
      exact k1.1
    | ub => rw [ho] at k1; exact absurd k1 id
  | compute hc =>
    have k := agree_step hreg hE (SameOp.compute hc) trivial (fun _ => trivial) trivial h.agree
    exact ⟨trivial, k.2, h.frames, hiters _⟩
  | iter =>
    refine ⟨trivial, h.agree, h.frames, ?_⟩
    simp only [PyFrames.step, FrameTable.step, hnb]
    exact List.rel_append h.iters (.cons (left_iter hnn) .nil)
  | reversed =>
    refine ⟨trivial, h.agree, h.frames, ?_⟩
    simp only [PyFrames.step, FrameTable.step, hnb]
    exact List.rel_append h.iters (.cons (left_reversed hnn) .nil)
  | next k =>
    have hlen := h.iters.length_eq
    have hk2 : k < t.rest.length := hfit
    have hk1 : k < s.iters.length := by omega
    have hl : Left t.table.nb s.iters[k] t.rest[k] := (List.forall₂_iff_get.1 h.iters).2 k hk1 hk2
    simp only [PyFrames.step, FrameTable.step, List.getElem?_eq_getElem hk1, List.getElem?_eq_getElem hk2, hnb]
    cases hc : t.rest[k] with
    | nil =>
      rw [hc] at hl
      obtain ⟨h1, h2⟩ := next_nil hl
      rw [h1]
      refine ⟨trivial, h.agree, h.frames, ?_⟩
      have := set_forall₂ h.iters (k := k) h2
      rw [show t.rest.set k [] = t.rest by rw [← hc]; exact List.set_getElem_self hk2] at this
      exact this
    | cons row l =>
      rw [hc] at hl
      obtain ⟨h1, h2⟩ := next_cons hl
      rw [h1]
      refine ⟨rfl, h.agree, ?_, set_forall₂ h.iters h2⟩
      simp only [PyFrames.bound, List.map_append, h.frames, List.map_cons, List.map_nil]
      rfl

theorem py_agree_run (hreg : Registered D P vars hidden) (hE : EntryLaw vars hidden mode (marksFor D P) I)
    {xs : List (PyFrameStep (Memory α))} {ys : List (PyFrameStep (String → Values α))}
    (hs : List.Forall₂ (SameStep (fun mem c => ∀ x ∈ vars, VarHolds P x (mem x.name) (c x.name))) xs ys)
    (hhid : ∀ x ∈ xs, x.Uses fun u => NoHidden vars hidden (u.op (C := Memory α) 0))
    (hro : mode = .read → ∀ x ∈ xs, x.Uses fun u => Refused vars (u.op (C := Memory α) 0)) {s : PyFrames α}
    {t : FrameTable (Values α)} (hfit : t.Fits late (vars.map SessVar.name) ys) (h : PyAgree D P vars hidden mode I s t) :
    List.Forall₂ Gives (s.run xs).1 (t.run late (vars.map SessVar.name) ys).1 ∧
      PyAgree D P vars hidden mode I (s.run xs).2 (t.run late (vars.map SessVar.name) ys).2 := by
  induction hs generalizing s t with
  | nil => exact ⟨.nil, h⟩
  | cons hxy _ ih =>
    obtain ⟨k1, k2⟩ := py_agree_step hreg hE hxy (hhid _ (List.mem_cons_self ..)) (fun e => hro e _ (List.mem_cons_self ..)) hfit.1 h
    obtain ⟨i1, i2⟩ := ih (fun x hx => hhid x (List.mem_cons_of_mem _ hx)) (fun e x hx => hro e x (List.mem_cons_of_mem _ hx))
      hfit.2 k2
    exact ⟨.cons k1 i1, i2⟩

end
end Verif.Props
