import Verif.Lemmas.CollDefined
/-
C96: calls on field collections are defined.
-/
set_option linter.unusedSectionVars false
namespace Verif.Props
open Verif Verif.Ccoord Verif.Layout Verif.Collection Verif.Collection.Coll

variable {α U : Type} [Inhabited α] [DecidableEq U]

/-- The full claim: whatever was called before, a call on a collection or one of its fields succeeds or throws.  (Writing
through a pointer or map is up to the caller and left out.) -/
def C96_statement : Prop :=
  ∀ (srt : SortFn), SortSpec srt → ∀ (global : Bool) (dim : Int) (order : StorageOrder) (c0 c : Coll Int String),
    mk' global dim order [] = .ok c0 → Reachable srt (fun _ _ => True) c0 c →
    ∀ op, (∀ name i v, op ≠ .write name i v) → (c.step srt op).1 ≠ .ub

/-- A global collection with one field, not initialised. -/
def exEarly : List (Op Int String) := [.register "a" .int (.num 2) "pixel" "" false]

/-- **C96** The claim is false: cloning a field of a global collection before its initialisation reads and writes through null
pointers.  (The same call on a local collection throws.) -/
theorem C96_false : ¬ C96_statement := by
  intro h
  have hm : (mk' true 2 .colMajor [] : Res (Coll Int String)) = .ok (Coll.empty true 2 .colMajor [("pixel", 1)]) := by
    decide +kernel
  have hr : (Coll.empty true 2 .colMajor [("pixel", 1)] : Coll Int String).run stableSort exEarly =
      some (((Coll.empty true 2 .colMajor [("pixel", 1)] : Coll Int String).run stableSort exEarly).getD
        (Coll.empty true 2 .colMajor [])) := by decide +kernel
  have := h stableSort stableSort_spec true 2 .colMajor _ _ hm
    (reachable_of_run (fun _ _ _ => trivial) Reachable.start hr) (.clone "a" "b" false) (by simp)
  exact this (by decide +kernel)

/-- A local collection with a field that received a value after the initialisation. -/
def exLate : List (Op Int String) :=
  [.addPixel 7, .register "a" .int (.num 1) "pixel" "" false, .initLocal, .pushBack "a" false [3]]

/-- **C96** Also cloning a local field after `push_back` is undefined: the pointer of the field is not renewed. -/
theorem C96_push_back : ((exLocal.run stableSort exLate).map fun c => (c.step stableSort (.clone "a" "b" false)).1) = some .ub := by
  decide +kernel

/-- **C96** (part: all calls but clones) On every collection, in whatever state, registrations, removals, sub-points,
initialisations with any grid and any strides, pixels, reshaping, appending, padding, zeroing and cycling succeed or throw.
Missing: clones (`C96_clone_partial`). -/
theorem C96_calls_partial {srt : SortFn} (hsrt : SortSpec srt) (c : Coll α U) (op : Op α U)
    (hw : ∀ name i v, op ≠ .write name i v) (hc : ∀ src dst ow, op ≠ .clone src dst ow) :
    (c.step srt op).1 = .ok () ∨ ∃ e, (c.step srt op).1 = .throw e := by
  have := step_not_ub hsrt c op hw hc
  rcases h : (c.step srt op).1 with ⟨⟩ | e | _
  · exact Or.inl rfl
  · exact Or.inr ⟨e, rfl⟩
  · exact absurd h this

example : (exColl.step stableSort (.initGlobal [3, 2] [2, -2] [0] [5])).1 = .throw .fieldCollectionError ∧
    (exColl.step stableSort (.initGlobal [3, 2] [] [0, 0] [-7, 0])).1 = .ok () ∧
    (exColl.step stableSort (.setPadSize "a" 3)).1 = .throw .fieldCollectionError := by decide +kernel

/-- The invariants of a collection that is used sensibly. -/
structure SaneColl (srt : SortFn) (c : Coll α U) : Prop where
  size : SizeInv c
  pix : PixInv srt c
  shapes : ShapesPos c
  addr : AddrInv c

theorem saneColl_start {srt : SortFn} {global : Bool} {dim : Int} {order : StorageOrder} {sub : SMap String Int}
    (hs : sub.Sorted) (hv : ∀ tag n, sub.find tag = some n → n = Unknown ∨ 1 ≤ n) {c : Coll α U}
    (hc : mk' global dim order sub = .ok c) : SaneColl srt c := by
  refine ⟨mk'_sizeInv hs hv hc, mk'_pixInv srt hc, ?_, ?_⟩
  · intro n f hf; rw [(mk'_spec hc).2] at hf; cases hf
  · intro _ hi; rw [(mk'_spec hc).2] at hi; cases hi

theorem SaneColl.defined {srt : SortFn} (hsrt : SortSpec srt) {c : Coll α U} (h : SaneColl srt c) (op : Op α U)
    (ha : c.Sane op) : (c.step srt op).1 ≠ .ub := by
  by_cases hw : ∀ name i v, op ≠ .write name i v
  · by_cases hc : ∀ src dst ow, op ≠ .clone src dst ow
    · exact step_not_ub hsrt c op hw hc
    · push Not at hc
      obtain ⟨src, dst, ow, rfl⟩ := hc
      exact clone_not_ub hsrt h.size h.pix h.shapes h.addr ha src dst ow
  · push Not at hw
    obtain ⟨name, i, v, rfl⟩ := hw
    refine onField_not_ub c name (fun f => f.write i v) fun f hf => ?_
    obtain ⟨hi, hlt⟩ := ha f hf
    obtain ⟨_, s2, s3⟩ := h.size.size hi name f hf
    unfold Field.write
    rw [if_pos ⟨s3, by omega⟩]
    simp

theorem SaneColl.step {srt : SortFn} (hsrt : SortSpec srt) {c : Coll α U} (h : SaneColl srt c) (op : Op α U)
    (ha : c.Sane op) : SaneColl srt (c.step srt op).2 :=
  ⟨h.size.step op ha.adm (h.defined hsrt op ha), h.pix.step op, h.shapes.step h.size op ha, h.addr.step op ha⟩

/-- **C96** (part: sensible programs) A program in which components are positive, appending comes before the initialisation,
own strides give the pixels their own places, fields of global collections are cloned after the initialisation, and entries
are written inside fields after the initialisation, runs to its end, for every length.  Calls in wrong order, with names
that do not exist or exist already, and with other arguments may throw in between.  Missing: other programs, where the claim is false. -/
theorem C96_programs_partial {srt : SortFn} (hsrt : SortSpec srt) {global : Bool} {dim : Int} {order : StorageOrder}
    {sub : SMap String Int} (hs : sub.Sorted) (hv : ∀ tag n, sub.find tag = some n → n = Unknown ∨ 1 ≤ n) {c : Coll α U}
    (hc : mk' global dim order sub = .ok c) (ops : List (Op α U))
    (ho : SaneProgram (fun c op => (c.step srt op).2) c ops) : ∃ c', c.run srt ops = some c' := by
  have key : ∀ (ops : List (Op α U)) (c : Coll α U), SaneColl srt c →
      SaneProgram (fun c op => (c.step srt op).2) c ops → ∃ c', c.run srt ops = some c' := by
    intro ops
    induction ops with
    | nil => intro c _ _; exact ⟨c, rfl⟩
    | cons op ops ih =>
      intro c h ho
      have hd := h.defined hsrt op ho.1
      have hn := h.step hsrt op ho.1
      have hr : SaneProgram (fun c op => (c.step srt op).2) (c.step srt op).2 ops := ho.2
      unfold run
      rcases hst : c.step srt op with ⟨r, c1⟩
      rw [hst] at hd hn hr
      cases r with
      | ub => exact absurd rfl hd
      | ok u => exact ih c1 hn hr
      | throw e => exact ih c1 hn hr
  exact key ops c (saneColl_start hs hv hc) ho

/-- A program with exceptions: a name in use, a second initialisation and an unknown name. -/
def exSane : List (Op Int String) :=
  [.register "a" .int (.shape [2]) "quad" "" false, .register "a" .int (.num 1) "quad" "" false,
   .initGlobalOrder [3, 2] [] [] .automatic, .initGlobalOrder [0, 2] [] [] .rowMajor, .setZero "b",
   .write "a" 47 9, .clone "a" "b" false, .clone "a" "b" false]

example : SaneProgram (fun c op => (c.step stableSort op).2) exColl exSane := by
  refine ⟨by simp [Sane, Pos], by simp [Sane], by simp [Sane], by simp [Sane], trivial, ?_, ?_, ?_, trivial⟩
  · intro f hf
    have he : ((((((exColl.step stableSort (.register "a" .int (.shape [2]) "quad" "" false)).2.step stableSort
        (.register "a" .int (.num 1) "quad" "" false)).2.step stableSort
        (.initGlobalOrder [3, 2] [] [] .automatic)).2.step stableSort (.initGlobalOrder [0, 2] [] [] .rowMajor)).2.step
        stableSort (.setZero "b")).2.fields.find "a").map (fun f => (f.nbComp, f.nbSub, f.pad)) = some (2, 4, 0) := by
      decide +kernel
    rw [hf] at he
    simp only [Option.map_some, Option.some.injEq, Prod.mk.injEq] at he
    obtain ⟨e1, e2, e3⟩ := he
    refine ⟨by decide +kernel, ?_⟩
    rw [e1, e2, e3]
    decide +kernel
  · intro _; decide +kernel
  · intro _; decide +kernel

example : ((exColl.run stableSort exSane).map fun c => (c.fields.find "b").map fun f => (f.shape, f.vals[47]?)) =
    some (some ([2], some 9)) := by decide +kernel

/-- **C96** (part: clones) In a collection that was used sensibly a clone succeeds or throws, for all names, whether the
target exists or not; on a global collection this needs the initialisation. -/
theorem C96_clone_partial {srt : SortFn} (hsrt : SortSpec srt) {global : Bool} {dim : Int} {order : StorageOrder}
    {sub : SMap String Int} (hs : sub.Sorted) (hv : ∀ tag n, sub.find tag = some n → n = Unknown ∨ 1 ≤ n) {c0 c : Coll α U}
    (hc : mk' global dim order sub = .ok c0) (hr : Reachable srt Sane c0 c) (hi : c.global = true → c.initialised = true)
    (src dst : String) (ow : Bool) :
    (c.clone srt src dst ow).1 = .ok () ∨ ∃ e, (c.clone srt src dst ow).1 = .throw e := by
  have hsane : SaneColl srt c := by
    clear hi
    induction hr with
    | start => exact saneColl_start hs hv hc
    | call op _ ha _ ih => exact ih.step hsrt op ha
  have := clone_not_ub hsrt hsane.size hsane.pix hsane.shapes hsane.addr hi src dst ow
  rcases h : (c.clone srt src dst ow).1 with ⟨⟩ | e | _
  · exact Or.inl rfl
  · exact Or.inr ⟨e, rfl⟩
  · exact absurd h this

/-- **C96** Writing an entry of an initialised, sensibly used collection is defined exactly inside the buffer of the field,
which includes its padding. -/
theorem C96_write {srt : SortFn} (hsrt : SortSpec srt) {global : Bool} {dim : Int} {order : StorageOrder}
    {sub : SMap String Int} (hs : sub.Sorted) (hv : ∀ tag n, sub.find tag = some n → n = Unknown ∨ 1 ≤ n) {c0 c : Coll α U}
    (hc : mk' global dim order sub = .ok c0) (hr : Reachable srt Sane c0 c) (hi : c.initialised = true) {name : String}
    {f : Field α U} (hf : c.fields.find name = some f) (i : Nat) (v : α) :
    ((c.step srt (.write name i v)).1 = .ok () ↔ (i : Int) < f.nbComp * f.nbSub * c.nbBuf + f.pad) ∧
    ((c.step srt (.write name i v)).1 ≠ .ok () → (c.step srt (.write name i v)).1 = .ub) := by
  have hsize : SizeInv c := by
    clear hi hf
    induction hr with
    | start => exact mk'_sizeInv hs hv hc
    | call op _ ha hub ih => exact ih.step op ha.adm hub
  obtain ⟨_, s2, s3⟩ := hsize.size hi name f hf
  have e : (c.step srt (.write name i v)).1 = (f.write i v).1 := by
    simp only [Coll.step]
    rcases c.onField_cases name (fun f => f.write i v) with ⟨h1, _⟩ | ⟨g, h1, h2⟩
    · rw [hf] at h1; cases h1
    · rw [hf] at h1; cases h1; rw [h2]
  rw [e]
  unfold Field.write
  by_cases h : f.fresh = true ∧ i < f.vals.length
  · rw [if_pos h]
    exact ⟨⟨fun _ => by omega, fun _ => rfl⟩, fun hn => absurd rfl hn⟩
  · rw [if_neg h]
    refine ⟨⟨fun hn => (by cases hn), fun hlt => absurd ⟨s3, by omega⟩ h⟩, fun _ => rfl⟩

example : (exAfter.step stableSort (.write "flag" 5 1)).1 = .ok () ∧ (exAfter.step stableSort (.write "flag" 6 1)).1 = .ub ∧
    ((exAfter.step stableSort (.setPadSize "flag" 1)).2.step stableSort (.write "flag" 6 1)).1 = .ok () := by decide +kernel

end Verif.Props
