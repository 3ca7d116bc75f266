import Verif.Lemmas.PyLife
/-
C78: python objects and the memory they use.
-/
namespace Verif.Props
open Verif Verif.PyLife

/-- A state that a python program comes to. -/
def PyReached (s : Py) : Prop := ∃ ops, start.run ops = some s

theorem PyReached.inv {s : Py} (h : PyReached s) : Inv s := by
  obtain ⟨ops, h⟩ := h
  exact inv_run inv_start h

/-- C78 in full: no python program, whatever it makes, keeps and forgets, does anything undefined. -/
def C78_statement : Prop := ∀ ops : List Op, start.run ops ≠ none

/-- False: `f.s` does not keep its field.
```
c = muGrid.GlobalFieldCollection(...); f = c.real_field("f"); a = f.s
del f, c
a[0]
```
-/
theorem C78_false : ¬ C78_statement := fun h =>
  h [.collection, .field 0 "f", .window 1, .drop 1, .drop 0, .use 2] (by decide +kernel)

/-- Neither does a slice of `f.s`, although it keeps the array it is a slice of. -/
theorem C78_slice : start.run [.collection, .field 0 "f", .window 1, .slice 2, .drop 2, .drop 1, .drop 0, .use 3]
    = none := by decide +kernel

/-- Maps do not keep their fields. -/
theorem C78_map : start.run [.collection, .field 0 "f", .map 1, .drop 1, .drop 0, .use 2] = none := by
  decide +kernel

/-- `for i, p in collection().pixels.enumerate(): ...` uses pixels of a collection that is destroyed. -/
theorem C78_pixels : start.run [.collection, .pixels 0, .enumerate 1, .drop 1, .drop 0, .iterPixels 2] = none ∧
    start.run [.collection, .pixels 0, .iterPixels 1, .drop 1, .drop 0, .use 2] = none := by
  decide +kernel

/-- Frames do not keep their file: `fr = FileIONetCDF(...).append_frame(); fr.write()`. -/
theorem C78_frame : start.run [.file, .frame 0, .drop 0, .use 1] = none ∧
    start.run [.file, .iterFile 0, .drop 0, .nextFrame 1] = none := by
  decide +kernel

/-- Files do not keep the collections registered with them. -/
theorem C78_register : start.run [.file, .collection, .register 0 1, .frame 0, .drop 1, .use 2] = none := by
  decide +kernel

/-! ### What is destroyed -/

/-- Python destroys exactly the objects that cannot be reached from the program's variables. -/
theorem C78_collected {s : Py} (h : PyReached s) (i : Nat) : i ∈ s.held ↔ Reach s.objs s.names i :=
  mem_held h.inv i

/-- The sweep reaches no object in a new state from objects that were destroyed. -/
private theorem reach_change {s s' : Py} (h : Inv s) (hc : Change s s') {i : Nat} (hi : Reach s'.objs s'.names i) :
    i < s.objs.length → i ∈ s.held := by
  have hold : ∀ {j : Nat}, j ∈ s.names → j ∈ s.held := fun hj => (mem_held h _).2 (.base hj)
  have hkeep : ∀ {j k : Nat} {o : PyObj}, j ∈ s.held → s.objs[j]? = some o → k ∈ o.keeps → k ∈ s.held :=
    fun hj h1 h2 => (mem_held h _).2 (.keep ((mem_held h _).1 hj) h1 h2)
  have hgive : ∀ o : PyObj, (∀ k ∈ o.keeps, k ∈ s.names) → ∀ i, Reach (s.give o).objs (s.give o).names i →
      i < s.objs.length → i ∈ s.held := by
    intro o hk i hi
    induction hi with
    | base hm =>
      intro hlt
      rcases List.mem_cons.1 hm with e | hm
      · omega
      · exact hold hm
    | @keep a b p _ h1 h2 ih =>
      intro hlt
      by_cases ha : a < s.objs.length
      · refine hkeep (ih ha) ?_ h2
        rw [← h1]
        exact (List.getElem?_append_left ha).symm
      · have hal : a = s.objs.length := by
          have := (List.getElem?_eq_some_iff.1 h1).1
          simp only [Py.give, List.length_append, List.length_singleton] at this
          omega
        subst hal
        simp only [Py.give, List.getElem?_concat_length, Option.some.injEq] at h1
        subst h1
        exact hold (hk _ h2)
  have hnames : ∀ names : List Nat, (∀ j ∈ names, j ∈ s.held) → ∀ i, Reach s.objs names i → i ∈ s.held := by
    intro names hn i hi
    induction hi with
    | base hm => exact hn _ hm
    | keep _ h1 h2 ih => exact hkeep ih h1 h2
  intro hlt
  cases hc with
  | same => exact (mem_held h _).2 hi
  | name hj =>
    refine hnames _ (fun j hm => ?_) i hi
    rcases List.mem_cons.1 hm with rfl | hm
    · exact hj
    · exact hold hm
  | drop _ => exact hnames _ (fun j hm => hold (List.mem_of_mem_erase hm)) i hi
  | give _ hk => exact hgive _ hk i hi hlt
  | @wrap o _ hk =>
    unfold Py.wrap at hi
    split at hi
    · rename_i j hf
      refine hnames _ (fun k hm => ?_) i hi
      rcases List.mem_cons.1 hm with rfl | hm
      · exact List.mem_of_find?_eq_some hf
      · exact hold hm
    · exact hgive _ hk i hi hlt
  | @need fi c o p h1 h2 h3 h4 =>
    refine (mem_held h _).2 ?_
    have hn : (s.addNeed fi c).names = s.names := by unfold Py.addNeed; rw [h1]
    have ho : (s.addNeed fi c).objs = s.objs.set fi { o with needs := c :: o.needs } := by
      unfold Py.addNeed; rw [h1]
    rw [hn, ho] at hi
    refine hi.grow fun k q hq => ?_
    rw [List.getElem?_set] at hq
    split at hq
    · rename_i e
      subst e
      split at hq
      · cases hq; exact ⟨o, h1, rfl⟩
      · cases hq
    · exact ⟨q, hq, rfl⟩

/-- A destroyed object stays destroyed, whatever the program does. -/
theorem C78_never_back {s s' : Py} (h : PyReached s) {op : Op} (hs : s.step op = .ok s') {i : Nat}
    (hlt : i < s.objs.length) (hi : i ∉ s.held) : i ∉ s'.held := by
  have hc := step_change h.inv hs
  intro hh
  exact hi (reach_change h.inv hc ((mem_held (inv_change h.inv hc) i).1 hh) hlt)

/-- An object that is still referred to: `f = c.real_field("f"); del c` keeps the collection. -/
example : (start.run [.collection, .field 0 "f", .drop 0]).map (·.held) = some [0, 1] ∧
    (start.run [.collection, .field 0 "f", .drop 0, .drop 1]).map (·.held) = some [] := by decide +kernel

/-! ### What is safe -/

/-- Collections, fields, state fields, pixels, `f.array()`, buffers of fields and slices of these keep alive the
collection whose memory they use, however the program came by them and whatever it forgot since. -/
theorem C78_strong_partial {s : Py} (h : PyReached s) {i : Nat} (hi : i ∈ s.names) (hs : Strong s.objs i) :
    ∃ o, s.objs[i]? = some o ∧ s.use i = .ok o ∧ ∀ n ∈ o.needs, n ∈ s.held := by
  have hinv := h.inv
  have hlt := hinv.names i hi
  have ho : s.objs[i]? = some s.objs[i] := List.getElem?_eq_getElem hlt
  have hneeds : ∀ n ∈ s.objs[i].needs, n ∈ s.held := by
    intro n hn
    refine (mem_held hinv n).2 ?_
    refine Reach.mono (fun x hx => ?_) ((hinv.obj i _ ho).strong hs n hn)
    rw [List.mem_singleton] at hx
    subst hx
    exact .base hi
  have hw : s.objs[i].what ≠ .frame := by
    intro hw
    cases hs <;> simp_all
  refine ⟨s.objs[i], ho, ?_, hneeds⟩
  have hn : s.named i = .ok s.objs[i] := by unfold Py.named; rw [ho]; exact if_pos hi
  unfold Py.use
  rw [hn, Res.ok_bind]
  refine if_pos ?_
  unfold Py.touch
  rw [ho]
  dsimp only
  rw [if_neg hw]
  exact hneeds

/-- The field of an array of a slice of an array, everything else forgotten. -/
example : ∃ s, start.run [.collection, .stateField 0 "st", .current 1 "st 0", .array 2, .slice 3, .drop 0, .drop 1,
    .drop 2, .drop 3] = some s ∧ s.names = [4] ∧ Strong s.objs 4 ∧ s.held = [0, 1, 2, 3, 4] :=
  ⟨⟨[⟨.coll, [], []⟩, ⟨.state 0 "st", [0], [0]⟩, ⟨.field 0 "st 0", [0], [1]⟩, ⟨.array, [0], [2]⟩,
    ⟨.slice 3, [0], [3]⟩], [4]⟩, by decide +kernel, rfl,
    .slice (i := 4) (a := 3) rfl rfl (.array (i := 3) rfl rfl), by decide +kernel⟩

/-- Actions that make none of the objects that forget what they use. -/
def Op.Safe : Op → Prop
  | .window _ | .map _ | .enumerate _ | .iterPixels _ | .file | .frame _ | .iterFile _ | .nextFrame _ => False
  | _ => True

/-- Every object is one that keeps what it uses. -/
private def AllStrong (s : Py) : Prop := ∀ i, i < s.objs.length → Strong s.objs i

private theorem Strong.fwd {objs objs' : List PyObj} (hs : Same objs objs') {i : Nat} (h : Strong objs i) :
    Strong objs' i := by
  induction h with
  | coll h1 h2 => obtain ⟨o, e1, _, e2⟩ := hs _ _ h1; exact .coll e1 (e2.trans h2)
  | field h1 h2 => obtain ⟨o, e1, _, e2⟩ := hs _ _ h1; exact .field e1 (e2.trans h2)
  | state h1 h2 => obtain ⟨o, e1, _, e2⟩ := hs _ _ h1; exact .state e1 (e2.trans h2)
  | pixels h1 h2 => obtain ⟨o, e1, _, e2⟩ := hs _ _ h1; exact .pixels e1 (e2.trans h2)
  | array h1 h2 => obtain ⟨o, e1, _, e2⟩ := hs _ _ h1; exact .array e1 (e2.trans h2)
  | buffer h1 h2 => obtain ⟨o, e1, _, e2⟩ := hs _ _ h1; exact .buffer e1 (e2.trans h2)
  | slice h1 h2 _ ih => obtain ⟨o, e1, _, e2⟩ := hs _ _ h1; exact .slice e1 (e2.trans h2) ih

private theorem allStrong_give {s : Py} (h : AllStrong s) {o : PyObj}
    (ho : Strong (s.objs ++ [o]) s.objs.length) : AllStrong (s.give o) := by
  intro i hi
  simp only [Py.give, List.length_append, List.length_singleton] at hi
  by_cases hl : i < s.objs.length
  · exact Strong.fwd (Same.append _ _) (h i hl)
  · have : i = s.objs.length := by omega
    subst this
    exact ho

private theorem allStrong_wrap {s : Py} (h : AllStrong s) {o : PyObj}
    (ho : Strong (s.objs ++ [o]) s.objs.length) : AllStrong (s.wrap o) := by
  unfold Py.wrap
  split
  · exact h
  · exact allStrong_give h ho

private theorem new_get (l : List PyObj) (o : PyObj) : (l ++ [o])[l.length]? = some o := by simp

private theorem allStrong_step {s s' : Py} (hi : Inv s) (h : AllStrong s) {op : Op} (hop : Op.Safe op)
    (hs : s.step op = .ok s') : AllStrong s' := by
  cases op with
  | window | map | enumerate | iterPixels | file | frame | iterFile | nextFrame => exact hop.elim
  | collection => cases hs; exact allStrong_give h (.coll (new_get _ _) rfl)
  | field c name =>
    obtain ⟨o, h1, h2⟩ := Res.bind_eq_ok.1 hs
    split at h2 <;> cases h2
    exact allStrong_wrap h (.field (new_get _ _) rfl)
  | stateField c name =>
    obtain ⟨o, h1, h2⟩ := Res.bind_eq_ok.1 hs
    split at h2 <;> cases h2
    exact allStrong_wrap h (.state (new_get _ _) rfl)
  | pixels c =>
    obtain ⟨o, h1, h2⟩ := Res.bind_eq_ok.1 hs
    split at h2 <;> cases h2
    exact allStrong_wrap h (.pixels (new_get _ _) rfl)
  | current st name | clone st name =>
    obtain ⟨o, h1, h2⟩ := Res.bind_eq_ok.1 hs
    split at h2 <;> cases h2
    exact allStrong_wrap h (.field (new_get _ _) rfl)
  | collectionOf f =>
    obtain ⟨o, h1, h2⟩ := Res.bind_eq_ok.1 hs
    split at h2 <;> cases h2
    exact h
  | array f =>
    obtain ⟨o, h1, h2⟩ := Res.bind_eq_ok.1 hs
    split at h2 <;> cases h2
    exact allStrong_give h (.array (new_get _ _) rfl)
  | buffer f =>
    obtain ⟨o, h1, h2⟩ := Res.bind_eq_ok.1 hs
    split at h2 <;> cases h2
    exact allStrong_give h (.buffer (new_get _ _) rfl)
  | slice a =>
    obtain ⟨o, h1, h2⟩ := Res.bind_eq_ok.1 hs
    have hlt := (List.getElem?_eq_some_iff.1 (use_ok h1).1).1
    split at h2 <;> cases h2 <;>
      exact allStrong_give h (.slice (new_get _ _) rfl (Strong.fwd (Same.append _ _) (h a hlt)))
  | register fi c =>
    obtain ⟨o, h1, h2⟩ := Res.bind_eq_ok.1 hs
    obtain ⟨p, h3, h4⟩ := Res.bind_eq_ok.1 h2
    split at h4 <;> cases h4
    rename_i hw
    have e1 := (named_ok h1).1
    have hst := h fi (List.getElem?_eq_some_iff.1 e1).1
    exfalso
    cases hst <;> simp_all
  | use i =>
    obtain ⟨o, h1, h2⟩ := Res.bind_eq_ok.1 hs
    cases h2; exact h
  | hold i =>
    obtain ⟨o, h1, h2⟩ := Res.bind_eq_ok.1 hs
    cases h2; exact h
  | drop i =>
    obtain ⟨o, h1, h2⟩ := Res.bind_eq_ok.1 hs
    cases h2; exact h

/-- An action is undefined only if the program has a reference to an object whose memory belongs to a destroyed
one. -/
theorem C78_undefined {s : Py} {op : Op} (h : s.step op = .ub) :
    ∃ i ∈ s.names, ∃ n ∈ s.touch i, n ∉ s.held := by
  have huse : ∀ {i : Nat}, s.use i = .ub → ∃ i ∈ s.names, ∃ n ∈ s.touch i, n ∉ s.held := by
    intro i hu
    unfold Py.use at hu
    cases hn : s.named i with
    | throw e => rw [hn] at hu; cases hu
    | ub =>
      unfold Py.named at hn
      split at hn
      · split at hn <;> cases hn
      · cases hn
    | ok o =>
      rw [hn, Res.ok_bind] at hu
      split at hu
      · cases hu
      · rename_i hne
        refine ⟨i, (named_ok hn).2, ?_⟩
        exact Classical.byContradiction fun hc => hne fun n hm =>
          Classical.byContradiction fun hh => hc ⟨n, hm, hh⟩
  have hnamed : ∀ {i : Nat}, s.named i ≠ .ub := by
    intro i hn
    unfold Py.named at hn
    split at hn
    · split at hn <;> cases hn
    · cases hn
  have hbind : ∀ {i : Nat} {f : PyObj → Res Py}, (s.use i >>= f) = .ub → (∀ o, f o ≠ .ub) →
      ∃ i ∈ s.names, ∃ n ∈ s.touch i, n ∉ s.held := by
    intro i f hb hf
    cases hu : s.use i with
    | ub => exact huse hu
    | throw e => rw [hu] at hb; cases hb
    | ok o => rw [hu, Res.ok_bind] at hb; exact absurd hb (hf o)
  have hbind' : ∀ {i : Nat} {f : PyObj → Res Py}, (s.named i >>= f) = .ub → ∃ o, f o = .ub := by
    intro i f hb
    cases hu : s.named i with
    | ub => exact absurd hu hnamed
    | throw e => rw [hu] at hb; cases hb
    | ok o => rw [hu, Res.ok_bind] at hb; exact ⟨o, hb⟩
  cases op with
  | collection | file => cases h
  | field | stateField | current | clone | collectionOf | array | window | buffer | slice | map | pixels |
      enumerate | iterPixels | nextFrame | use =>
    exact hbind h fun o ho => by
      first
      | (split at ho <;> cases ho; done)
      | (cases ho; done)
  | register fi c =>
    obtain ⟨o, ho⟩ := hbind' h
    exact hbind ho fun p hp => by split at hp <;> cases hp
  | frame | iterFile =>
    obtain ⟨o, ho⟩ := hbind' h
    split at ho <;> cases ho
  | hold | drop =>
    obtain ⟨o, ho⟩ := hbind' h
    cases ho

/-- Programs that use `f.array()` and buffers instead of `f.s`, `f.p` and maps, and no files, are never undefined,
whatever they forget. -/
theorem C78_programs_partial {ops : List Op} (hops : ∀ op ∈ ops, Op.Safe op) : start.run ops ≠ none := by
  have key : ∀ (ops done : List Op) (s : Py), (∀ op ∈ ops, Op.Safe op) → start.run done = some s → AllStrong s →
      s.run ops ≠ none := by
    intro ops
    induction ops with
    | nil => intro done s _ _ _ h; cases h
    | cons op ops ih =>
      intro done s hops hr ha h
      have hinv := inv_run inv_start hr
      unfold Py.run at h
      have hrest := fun o ho => hops o (List.mem_cons_of_mem _ ho)
      have happ : ∀ (d : List Op) (t : Py), t.run d = some s → t.run (d ++ [op]) = s.run [op] := by
        intro d
        induction d with
        | nil => intro t ht; cases ht; rfl
        | cons x d ihd =>
          intro t ht
          rw [List.cons_append]
          unfold Py.run at ht ⊢
          cases hx : t.step x with
          | ok t' => rw [hx] at ht; exact ihd t' ht
          | throw e => rw [hx] at ht; exact ihd t ht
          | ub => rw [hx] at ht; cases ht
      cases ho : s.step op with
      | ok s1 =>
        rw [ho] at h
        refine ih (done ++ [op]) s1 hrest ?_ (allStrong_step hinv ha (hops op List.mem_cons_self) ho) h
        rw [happ _ _ hr]
        simp [Py.run, ho]
      | throw e => rw [ho] at h; exact ih done s hrest hr ha h
      | ub =>
        obtain ⟨i, hi, n, hn, hh⟩ := C78_undefined ho
        obtain ⟨o, h1, h2, h3⟩ := C78_strong_partial ⟨done, hr⟩ hi (ha i (hinv.names i hi))
        exact hh ((use_ok h2).2.2 n hn)
  exact key ops [] start hops rfl fun i hi => by simp [start] at hi

/-- Such a program: an array of a field, everything else forgotten. -/
example : (∀ op ∈ [Op.collection, .field 0 "f", .array 1, .drop 0, .drop 1, .use 2], Op.Safe op) ∧
    (start.run [Op.collection, .field 0 "f", .array 1, .drop 0, .drop 1, .use 2]).map (·.names) = some [2] :=
  ⟨by simp [Op.Safe], by decide +kernel⟩

/-- No collection and no file that was made is destroyed. -/
def OwnersHeld (s : Py) : Prop :=
  ∀ i, (h : i < s.objs.length) → s.objs[i].what = .coll ∨ s.objs[i].what = .file → i ∈ s.held

/-- A condition on all states that a program passes through. -/
def Along (P : Py → Prop) : Py → List Op → Prop
  | s, [] => P s
  | s, op :: ops => P s ∧ match s.step op with
      | .ok s' => Along P s' ops
      | .throw _ => Along P s ops
      | .ub => True

instance : DecidablePred OwnersHeld := fun s => by unfold OwnersHeld; infer_instance

instance Along.dec (P : Py → Prop) [DecidablePred P] : ∀ s ops, Decidable (Along P s ops)
  | s, [] => inferInstanceAs (Decidable (P s))
  | s, op :: ops => by
      unfold Along
      cases s.step op with
      | ok s' => have := Along.dec P s' ops; dsimp only; infer_instance
      | throw e => have := Along.dec P s ops; dsimp only; infer_instance
      | ub => dsimp only; infer_instance

/-- Programs that hold on to their collections and files until the end are never undefined, whatever else they
use and forget. -/
theorem C78_careful_partial {ops : List Op} (h : Along OwnersHeld start ops) : start.run ops ≠ none := by
  have key : ∀ (ops : List Op) (s : Py), Inv s → Along OwnersHeld s ops → s.run ops ≠ none := by
    intro ops
    induction ops with
    | nil => intro s _ _ h; cases h
    | cons op ops ih =>
      intro s hinv ha h
      unfold Py.run at h
      obtain ⟨ho, ha⟩ := ha
      cases hs : s.step op with
      | ok s1 => rw [hs] at h ha; exact ih s1 (inv_change hinv (step_change hinv hs)) ha h
      | throw e => rw [hs] at h ha; exact ih s hinv ha h
      | ub =>
        obtain ⟨i, hi, n, hn, hh⟩ := C78_undefined hs
        have hown : ∀ {j : Nat} {p : PyObj}, s.objs[j]? = some p → p.what = .coll ∨ p.what = .file → j ∈ s.held := by
          intro j p hp hw
          obtain ⟨hl, e⟩ := List.getElem?_eq_some_iff.1 hp
          exact ho j hl (by rw [e]; exact hw)
        have hneeds : ∀ {j m : Nat}, m ∈ s.needsOf j → m ∈ s.held := by
          intro j m hm
          unfold Py.needsOf at hm
          split at hm
          · rename_i o ho
            obtain ⟨p, h1, h2⟩ := (hinv.obj j o ho).owner m hm
            exact hown h1 (h2.elim (fun x => Or.inr x.2) (fun x => Or.inl x.2))
          · cases hm
        have hni : ∀ {o : PyObj}, s.objs[i]? = some o → s.needsOf i = o.needs := by
          intro o e; unfold Py.needsOf; rw [e]
        unfold Py.touch at hn
        split at hn
        · rename_i o ho
          split at hn
          · rcases List.mem_append.1 hn with hn | hn
            · exact hh (hneeds (j := i) (by rw [hni ho]; exact hn))
            · obtain ⟨j, _, hj⟩ := List.mem_flatMap.1 hn
              exact hh (hneeds hj)
          · exact hh (hneeds (j := i) (by rw [hni ho]; exact hn))
        · cases hn
  exact key ops start inv_start h

/-- A program with a window, a map, a file and a frame, which forgets the field and even the collection's variable
while another field keeps the collection. -/
example : Along OwnersHeld start [.collection, .field 0 "f", .field 0 "g", .file, .register 3 0, .frame 3, .window 1,
    .map 1, .drop 1, .drop 0, .use 6, .use 4, .use 5] := by
  decide +kernel

/-! ### Exactly when arrays, maps, frames and iterators may be used -/

/-- `f.s`, `f.p`, maps, enumerators and iterators over pixels can be used as long as the collection is held by
something else, and using them later is undefined. -/
theorem C78_window {s : Py} {i c : Nat} {o : PyObj} (ho : s.objs[i]? = some o) (hi : i ∈ s.names)
    (hn : o.needs = [c]) (hw : o.what ≠ .frame) :
    (s.use i = .ok o ↔ c ∈ s.held) ∧ (s.use i = .ub ↔ c ∉ s.held) := by
  have hnm : s.named i = .ok o := by unfold Py.named; rw [ho]; exact if_pos hi
  have ht : s.touch i = [c] := by unfold Py.touch; rw [ho]; simp [hw, hn]
  unfold Py.use
  rw [hnm, Res.ok_bind, ht]
  by_cases hc : c ∈ s.held <;> simp [hc]

/-- Every action that makes an array, a map, an enumerator or an iterator makes it with the collection of its field
or pixels as the only owner, and the new object keeps nothing: nothing is held that was not held before. -/
theorem C78_weak {s s' : Py} (h : PyReached s) {f : Nat} {op : Op}
    (hop : op = .window f ∨ op = .map f ∨ op = .enumerate f) (hs : s.step op = .ok s') :
    ∃ c o, s'.objs[s.objs.length]? = some o ∧ o.needs = [c] ∧ s.objs.length ∈ s'.names ∧ o.what ≠ .frame ∧
      (∃ p, s.objs[c]? = some p ∧ p.what = .coll) ∧ ∀ j, j ∈ s'.held ↔ j = s.objs.length ∨ j ∈ s.held := by
  have hinv := h.inv
  have hinv' := inv_change hinv (step_change hinv hs)
  have hheld : ∀ w ns, s' = s.give ⟨w, ns, []⟩ → ∀ j, j ∈ s'.held ↔ j = s.objs.length ∨ j ∈ s.held := by
    intro w ns e j
    rw [mem_held hinv']
    subst e
    constructor
    · intro hj
      induction hj with
      | base hm =>
        rcases List.mem_cons.1 hm with e | hm
        · exact Or.inl e
        · exact Or.inr ((mem_held hinv _).2 (.base hm))
      | @keep a b p _ h1 h2 ih =>
        rcases ih with rfl | ih
        · simp only [Py.give, List.getElem?_concat_length, Option.some.injEq] at h1
          subst h1
          cases h2
        · have ha := held_lt hinv ih
          refine Or.inr ((mem_held hinv _).2 (.keep ((mem_held hinv _).1 ih) (o := p) ?_ h2))
          rw [← h1]
          exact (List.getElem?_append_left ha).symm
    · rintro (rfl | hj)
      · exact .base List.mem_cons_self
      · have := ((mem_held hinv _).1 hj).grow (objs' := (s.give ⟨w, ns, []⟩).objs) (fun k q hq =>
          ⟨q, by rw [← hq]; exact List.getElem?_append_left (List.getElem?_eq_some_iff.1 hq).1, rfl⟩)
        exact this.mono fun x hx => .base (List.mem_cons_of_mem _ hx)
  rcases hop with rfl | rfl | rfl
  all_goals
    obtain ⟨o, h1, h2⟩ := Res.bind_eq_ok.1 hs
    obtain ⟨e1, e2, e3⟩ := use_ok h1
    split at h2 <;> cases h2
    rename_i hw
    have hneed := (hinv.obj f o e1).owner
  · rename_i c n
    obtain ⟨p, f1, f2⟩ := hneed c (by rw [(hinv.obj f o e1).field c n hw]; simp)
    exact ⟨c, _, new_get _ _, rfl, by simp [Py.give], by simp, ⟨p, f1, by rw [hw] at f2; simpa using f2⟩,
      hheld _ _ rfl⟩
  · rename_i c n
    obtain ⟨p, f1, f2⟩ := hneed c (by rw [(hinv.obj f o e1).field c n hw]; simp)
    exact ⟨c, _, new_get _ _, rfl, by simp [Py.give], by simp, ⟨p, f1, by rw [hw] at f2; simpa using f2⟩,
      hheld _ _ rfl⟩
  · rename_i c
    obtain ⟨p, f1, f2⟩ := hneed c (by rw [(hinv.obj f o e1).pixels c hw]; simp)
    exact ⟨c, _, new_get _ _, rfl, by simp [Py.give], by simp, ⟨p, f1, by rw [hw] at f2; simpa using f2⟩,
      hheld _ _ rfl⟩

example : ∃ s s', PyReached s ∧ s.step (.window 1) = .ok s' ∧ s'.use 2 = .ok ⟨.window, [0], []⟩ :=
  ⟨⟨[⟨.coll, [], []⟩, ⟨.field 0 "f", [0], [0]⟩], [1, 0]⟩, _, ⟨[.collection, .field 0 "f"], by decide +kernel⟩, rfl,
    by decide +kernel⟩

/-- A frame can be used exactly as long as its file and all collections registered with the file are held. -/
theorem C78_frame_use {s : Py} {i fi : Nat} {o p : PyObj} (ho : s.objs[i]? = some o) (hi : i ∈ s.names)
    (hw : o.what = .frame) (hn : o.needs = [fi]) (hf : s.objs[fi]? = some p) :
    s.use i = .ok o ↔ fi ∈ s.held ∧ ∀ c ∈ p.needs, c ∈ s.held := by
  have hnm : s.named i = .ok o := by unfold Py.named; rw [ho]; exact if_pos hi
  have ht : s.touch i = fi :: p.needs := by
    unfold Py.touch
    rw [ho]
    simp [hw, hn, Py.needsOf, hf]
  unfold Py.use
  rw [hnm, Res.ok_bind, ht]
  by_cases hc : ∀ n ∈ fi :: p.needs, n ∈ s.held
  · rw [if_pos hc]
    simpa using hc
  · rw [if_neg hc]
    simpa using hc

example : ∃ s, start.run [.file, .collection, .register 0 1, .frame 0] = some s ∧
    s.objs[2]? = some ⟨.frame, [0], []⟩ ∧ s.objs[0]? = some ⟨.file, [1], []⟩ ∧ s.use 2 = .ok ⟨.frame, [0], []⟩ :=
  ⟨⟨[⟨.file, [1], []⟩, ⟨.coll, [], []⟩, ⟨.frame, [0], []⟩], [2, 1, 0]⟩, by decide +kernel, rfl, rfl,
    by decide +kernel⟩

end Verif.Props
