import Verif.Lemmas.CollectionInv
import Verif.Props.Grid
/-
Properties C10 to C16 of field collections, for arbitrary sequences of calls.

`c.run srt ops = some c'`: the program `ops`, started with the collection `c`, leads to `c'`;
exceptions are caught, and undefined behaviour (`none`) is excluded.  Values are elements of an
arbitrary type `α` with a default (zero), units elements of an arbitrary type `U`.
-/
set_option linter.unusedSectionVars false

namespace Verif.Props
open Verif Verif.Ccoord Verif.Layout Verif.Collection Verif.Collection.Coll

variable {α U : Type} [Inhabited α] [DecidableEq U]

/-- States reachable from `c0` by calls allowed by `adm` that do not run into undefined
behaviour. -/
inductive Reachable (srt : SortFn) (adm : Coll α U → Op α U → Prop) (c0 : Coll α U) : Coll α U → Prop
  | start : Reachable srt adm c0 c0
  | call {c : Coll α U} (op : Op α U) : Reachable srt adm c0 c → adm c op →
      (c.step srt op).1 ≠ .ub → Reachable srt adm c0 (c.step srt op).2

theorem reachable_of_run {srt : SortFn} {adm : Coll α U → Op α U → Prop} {c0 : Coll α U}
    {ops : List (Op α U)} (hadm : ∀ d, ∀ op ∈ ops, adm d op) :
    ∀ {c c' : Coll α U}, Reachable srt adm c0 c → c.run srt ops = some c' →
      Reachable srt adm c0 c' := by
  induction ops with
  | nil => intro c c' h hr; simp [run] at hr; subst hr; exact h
  | cons op ops ih =>
    intro c c' h hr
    unfold run at hr
    have hne : (c.step srt op).1 ≠ .ub := by
      intro hub
      rcases hs : c.step srt op with ⟨r, c1⟩
      rw [hs] at hub hr
      simp only at hub
      subst hub
      simp at hr
    have h1 := Reachable.call (adm := adm) op h (hadm c op (by simp)) hne
    rcases hs : c.step srt op with ⟨r, c1⟩
    rw [hs] at h1 hr
    cases r with
    | ub => simp at hr
    | ok u => exact ih (fun d o ho => hadm d o (by simp [ho])) h1 hr
    | throw e => exact ih (fun d o ho => hadm d o (by simp [ho])) h1 hr

/-! A collection for the examples: values are integers, units are strings. -/

/-- A global collection of dimension 2 with 4 points for the tag `quad`. -/
def exColl : Coll Int String := Coll.empty true 2 .colMajor [("pixel", 1), ("quad", 4)]

/-- A local collection. -/
def exLocal : Coll Int String := Coll.empty false 2 .colMajor [("pixel", 1), ("quad", 4)]

theorem exColl_made : (Coll.mk' true 2 .colMajor [("quad", 4)] : Res (Coll Int String)) = .ok exColl := by
  decide +kernel

theorem exLocal_made :
    (Coll.mk' false 2 .colMajor [("quad", 4)] : Res (Coll Int String)) = .ok exLocal := by
  decide +kernel

/-- A program: two fields are registered, the collection is initialised on a 3 × 2 grid, another field
is registered. -/
def exProgram : List (Op Int String) :=
  [.register "strain" .real (.shape [2, 2]) "quad" "" false,
   .register "flag" .int (.num 1) "pixel" "" false,
   .initGlobalOrder [3, 2] [] [] .automatic,
   .register "stress" .real (.shape [2, 2]) "quad" "Pa" false]

/-- The state that program leads to. -/
def exAfter : Coll Int String := (exColl.run stableSort exProgram).getD exColl

theorem exAfter_run : exColl.run stableSort exProgram = some exAfter := by
  have : (exColl.run stableSort exProgram).isSome = true := by decide +kernel
  unfold exAfter
  rw [Option.isSome_iff_exists] at this
  obtain ⟨c, hc⟩ := this
  rw [hc]; rfl

/-! ## C10 -/

/-- **C10** After any program every name denotes one field: the list of names returned by
`list_fields` has no repetition, and looking up a listed name yields its field. -/
theorem C10_unique_names {srt : SortFn} {global : Bool} {dim : Int} {order : StorageOrder}
    {sub : SMap String Int} (hs : sub.Sorted) {c c' : Coll α U}
    (hc : mk' global dim order sub = .ok c) {ops : List (Op α U)} (hr : c.run srt ops = some c') :
    c'.fields.keys.Nodup ∧ (∀ name f, (name, f) ∈ c'.fields ↔ c'.fields.find name = some f) ∧
      c'.states.keys.Nodup := by
  have h := run_induct srt WF (mk'_wf hs hc) (fun d op hd _ => hd.step srt op) hr
  exact ⟨SMap.sorted_nodup h.fields_sorted,
    fun name f => ⟨SMap.find_of_mem h.fields_sorted, SMap.mem_of_find⟩,
    SMap.sorted_nodup h.states_sorted⟩

example : SMap.Sorted [("quad", (4 : Int))] ∧ exAfter.fields.keys = ["flag", "strain", "stress"] := by
  refine ⟨by simp [SMap.Sorted], by decide +kernel⟩

/-- **C10** Registering a name that exists fails and changes nothing. -/
theorem C10_register_existing (c : Coll α U) (name : String) (f : Field α U)
    (h : c.fields.find name = some f) (ty : ElemType) (comps : Comps) (tag : String) (unit : U) :
    c.register name ty comps tag unit false = (.throw .fieldCollectionError, c) := by
  simp [Coll.register, h]

example : (exAfter.fields.find "flag").isSome := by decide +kernel

/-- **C10** The accessor variants return the existing field exactly if type, components,
sub-division and unit agree, fail otherwise, and change nothing in either case. -/
theorem C10_access_existing (c : Coll α U) (name : String) (f : Field α U)
    (h : c.fields.find name = some f) (ty : ElemType) (comps : Comps) (tag : String) (unit : U) :
    (c.register name ty comps tag unit true).2 = c ∧
    ((c.register name ty comps tag unit true).1 = .ok () ∨
      ∃ e, (c.register name ty comps tag unit true).1 = .throw e) ∧
    ((c.register name ty comps tag unit true).1 = .ok () ↔
      f.ty = ty ∧ f.tag = tag ∧ f.unit = unit ∧
        (∀ n, comps = .num n → f.nbComp = n) ∧ (∀ s, comps = .shape s → f.shape = s)) := by
  rcases c.register_cases name ty comps tag unit true with
    ⟨g, h1, h2, h3, h4⟩ | ⟨h1, _⟩ | ⟨h1, _⟩
  · rw [h] at h1; cases h1
    refine ⟨h2, ?_, ?_⟩
    · rcases hr : (c.register name ty comps tag unit true).1 with u | e | _
      · exact Or.inl rfl
      · exact Or.inr ⟨e, rfl⟩
      · exact absurd hr h3
    · rw [h4]
      cases comps <;> simp <;> tauto
  · rw [h] at h1; cases h1
  · rw [h] at h1; cases h1

example : exAfter.fields.find "flag" =
    some ⟨.int, [1], 1, 1, "pixel", "", 0, 6, [0, 0, 0, 0, 0, 0], true⟩ := by decide +kernel

/-- **C10** Registering a new name either fails, leaving all fields as they are, or adds a field with
the requested type, components, sub-division and unit, leaving all others as they are. -/
theorem C10_register_new (c : Coll α U) (name : String) (h : c.fields.find name = none)
    (ty : ElemType) (comps : Comps) (tag : String) (unit : U) (allow : Bool) :
    ((∃ e, (c.register name ty comps tag unit allow).1 = .throw e) ∧
      (c.register name ty comps tag unit allow).2.fields = c.fields) ∨
    ((c.register name ty comps tag unit allow).1 = .ok () ∧
      (∃ f, (c.register name ty comps tag unit allow).2.fields.find name = some f ∧
        f.ty = ty ∧ f.shape = comps.toShape ∧ f.nbComp = comps.toNb ∧ f.tag = tag ∧ f.unit = unit ∧
        (∀ v ∈ f.vals, v = default)) ∧
      (∀ name', name' ≠ name →
        (c.register name ty comps tag unit allow).2.fields.find name' = c.fields.find name')) := by
  rcases c.register_cases name ty comps tag unit allow with
    ⟨g, h1, _⟩ | ⟨_, f, ⟨f1, f2, f3, f4, f5, f6, f7⟩, h2, h3, h4⟩ | ⟨_, _, ⟨e, h2⟩, h3⟩
  · rw [h] at h1; cases h1
  · right
    rw [h2]
    refine ⟨rfl, ⟨f, SMap.find_insert_self _ _ _, f1, f2, f3, f5, f6, ?_⟩, ?_⟩
    · cases hi : c.initialised with
      | true => exact (h4 hi).2.2.2.2
      | false => rw [(h3 hi).2.1]; simp
    · intro name' hn
      exact SMap.find_insert_ne _ _ hn
  · left
    exact ⟨⟨e, h2⟩, by rw [h3, (c.getSub_frame tag).2.1]⟩

example : exAfter.fields.find "new" = none ∧
    (exAfter.register "new" .real (.num 3) "quad" "" false).1 = .ok () := by decide +kernel

/-- Before initialisation, and afterwards for a sub-division with known number of points on a
collection whose buffer size fits, registration of a new name succeeds. -/
theorem C10_register_new_ok (c : Coll α U) (name : String) (h : c.fields.find name = none)
    (ty : ElemType) (comps : Comps) (tag : String) (unit : U) (allow : Bool)
    (hi : c.initialised = false ∨ (∃ n, c.subPts.find tag = some n ∧ n ≠ Unknown ∧
      0 ≤ n * c.nbBuf * comps.toNb)) :
    (c.register name ty comps tag unit allow).1 = .ok () := by
  unfold Coll.register
  rw [h]
  obtain ⟨hb, _, _⟩ := c.getSub_frame tag
  simp only [base, Prod.mk.injEq] at hb
  obtain ⟨b1, b2, b3, b4, b5, b6, b7, b8, b9, b10⟩ := hb
  simp only [b7, b5]
  rcases hi with hi | ⟨n, h1, h2, h3⟩
  · simp [hi]
  · split
    · have hg : (c.getSub tag).1 = n := by rw [getSub_fst, h1]; rfl
      rw [hg]
      have hr : ((Field.new ty comps n tag unit : Field α U).resize c.nbBuf).1 = .ok () := by
        unfold Field.resize
        have : ¬ n * c.nbBuf * comps.toNb < 0 := by omega
        simp only [Field.hasSub, Field.new, bne_iff_ne, ne_eq, h2, not_false_eq_true, not_true_eq_false,
          if_false, Int.natCast_zero, add_zero, this]
        split <;> rfl
      rcases hrr : (Field.new ty comps n tag unit : Field α U).resize c.nbBuf with ⟨r, f'⟩
      rw [hrr] at hr
      simp only at hr
      subst hr
      rfl
    · rfl

example : exAfter.initialised = true ∧ exAfter.subPts.find "quad" = some 4 ∧ exAfter.nbBuf = 6 := by
  decide +kernel

/-- **C10** No registration call (of a field, of a state field or of a detached field), whatever its
outcome, changes or removes a field that is registered. -/
theorem C10_registration_keeps {srt : SortFn} {c : Coll α U} (hs : c.fields.Sorted) (op : Op α U)
    (hop : (∃ name ty comps tag unit allow, op = .register name ty comps tag unit allow) ∨
      (∃ pre ty m n tag unit allow, op = .registerState pre ty m n tag unit allow) ∨
      (∃ name ty shape tag unit, op = .detached name ty shape tag unit))
    {name : String} {f : Field α U} (h : c.fields.find name = some f) :
    (c.step srt op).2.fields.find name = some f := by
  rcases hop with ⟨_, _, _, _, _, _, rfl⟩ | ⟨_, _, _, _, _, _, _, rfl⟩ | ⟨n, ty, shape, tag, unit, rfl⟩
  · exact register_keeps _ _ _ _ _ _ _ h
  · exact (registerState_frame _ _ _ _ _ _ _ _).2.2 _ _ h
  · have hg : (c.getSub tag).2.fields.find name = some f := by
      rw [(c.getSub_frame tag).2.1]; exact h
    have : ((c.step srt (.detached n ty shape tag unit)).2 = c ∨
        (c.step srt (.detached n ty shape tag unit)).2 = (c.getSub tag).2) := by
      rcases detached_cases hs n ty shape tag unit with ⟨_, _, _, _, _, _, _, h2⟩ | ⟨_, h2⟩
      · right; exact h2
      · exact h2
    rcases this with h2 | h2 <;> rw [h2]
    · exact h
    · exact hg

example : exAfter.fields.Sorted ∧ (exAfter.fields.find "flag").isSome ∧
    (exAfter.step stableSort (.registerState "flag" .int 2 1 "quad" "" false)).2.fields.keys =
      ["flag", "flag, sub_field index 0", "flag, sub_field index 1", "flag, sub_field index 2",
       "strain", "stress"] := by
  refine ⟨by unfold SMap.Sorted; decide +kernel, by decide +kernel, by decide +kernel⟩

/-- One call keeps a registered field, with its type and unit, unless it pops it. -/
theorem step_keeps (srt : SortFn) {d : Coll α U} (hd : d.WF) {name : String} {f g : Field α U}
    (hg : d.fields.find name = some g) (g1 : g.ty = f.ty) (g2 : g.unit = f.unit) (op : Op α U)
    (hp : op ≠ .pop name) :
    ∃ f', (d.step srt op).2.fields.find name = some f' ∧ f'.ty = f.ty ∧ f'.unit = f.unit := by
  have hupd : ∀ (n : String) (F : Field α U → Field α U), (∀ x, (F x).ty = x.ty ∧ (F x).unit = x.unit) →
      ∀ x, d.fields.find n = some x →
      ∃ f', (d.fields.insert n (F x)).find name = some f' ∧ f'.ty = f.ty ∧ f'.unit = f.unit := by
    intro n F hF x hx
    rw [SMap.find_insert]
    split
    · rename_i hn
      subst hn
      rw [hg] at hx; cases hx
      exact ⟨F g, rfl, by rw [(hF g).1, g1], by rw [(hF g).2, g2]⟩
    · exact ⟨g, hg, g1, g2⟩
  have hon : ∀ (n : String) (o : Field α U → Res Unit × Field α U),
      (∀ x, (o x).2.ty = x.ty ∧ (o x).2.unit = x.unit) →
      ∃ f', (d.onField n o).2.fields.find name = some f' ∧ f'.ty = f.ty ∧ f'.unit = f.unit := by
    intro n o ho
    rcases d.onField_cases n o with ⟨_, h2⟩ | ⟨x, h1, h2⟩
    · rw [h2]; exact ⟨g, hg, g1, g2⟩
    · rw [h2]; exact hupd n (fun x => (o x).2) ho x h1
  have heff : ∀ r : Res Unit × Coll α U, InitEffect d r →
      ∃ f', r.2.fields.find name = some f' ∧ f'.ty = f.ty ∧ f'.unit = f.unit := by
    intro r he
    obtain ⟨_, _, _, h⟩ := he.forth name g hg
    exact ⟨_, h, g1, g2⟩
  have hsame : ∃ f', d.fields.find name = some f' ∧ f'.ty = f.ty ∧ f'.unit = f.unit := ⟨g, hg, g1, g2⟩
  cases op with
  | register _ _ _ _ _ _ =>
    exact ⟨g, C10_registration_keeps hd.fields_sorted _ (Or.inl ⟨_, _, _, _, _, _, rfl⟩) hg, g1, g2⟩
  | registerState _ _ _ _ _ _ _ =>
    exact ⟨g, C10_registration_keeps hd.fields_sorted _ (Or.inr (Or.inl ⟨_, _, _, _, _, _, _, rfl⟩)) hg, g1, g2⟩
  | detached _ _ _ _ _ =>
    exact ⟨g, C10_registration_keeps hd.fields_sorted _ (Or.inr (Or.inr ⟨_, _, _, _, _, rfl⟩)) hg, g1, g2⟩
  | pop n =>
    have hne : n ≠ name := by rintro rfl; exact hp rfl
    simp only [Coll.step]
    rcases d.pop_cases n with ⟨_, h2⟩ | ⟨x, _, h2⟩ <;> rw [h2]
    · exact hsame
    · refine ⟨g, ?_, g1, g2⟩
      simp only [SMap.find_erase hd.fields_sorted]
      rw [if_neg (Ne.symm hne)]; exact hg
  | setNbSubPts tag n =>
    simp only [Coll.step]
    rcases d.setNbSubPts_cases tag n with ⟨h1, _⟩ | ⟨_, _, h1⟩ <;> rw [h1]
    · exact hsame
    · simp only [SMap.find_map, hg]
      refine ⟨_, rfl, ?_, ?_⟩ <;> unfold Field.setSub <;> split <;> assumption
  | getSub tag => simp only [Coll.step, (d.getSub_frame tag).2.1]; exact hsame
  | initGlobal dom sub loc strides =>
    simp only [Coll.step]
    split
    · cases hi : d.initialised with
      | true => rw [(initGlobal_init hi).2]; exact hsame
      | false => exact heff _ (initGlobal_effect srt d dom sub loc strides hi)
    · exact hsame
  | initGlobalOrder dom sub loc order =>
    simp only [Coll.step]
    split
    · cases hi : d.initialised with
      | true => rw [(initGlobalOrder_init hi).1]; exact hsame
      | false => exact heff _ (initGlobalOrder_effect srt d dom sub loc order hi)
    · exact hsame
  | addPixel id =>
    simp only [Coll.step, addPixel]
    split
    · exact hsame
    · split <;> exact hsame
  | initLocal =>
    simp only [Coll.step]
    split
    · exact hsame
    · cases hi : d.initialised with
      | true => rw [initLocal_init hi]; exact hsame
      | false => exact heff _ (initLocal_effect d hi)
  | reshape n shape =>
    exact hon n (fun f => f.reshape shape) (by
      intro x; simp only [Field.reshape]; split <;> exact ⟨rfl, rfl⟩)
  | reshapeTag n shape tag =>
    simp only [Coll.step]
    rcases d.reshapeTag_cases n shape tag with ⟨_, h2⟩ | ⟨x, _, _, h2⟩ | ⟨x, h0, _, h2⟩ <;> rw [h2]
    · exact hsame
    · rw [(d.getSub_frame tag).2.1]; exact hsame
    · exact hupd n (fun x => { x with shape := shape, nbComp := getSize shape, nbSub := (d.getSub tag).1, tag := tag })
        (fun x => ⟨rfl, rfl⟩) x h0
  | pushBack n single value =>
    exact hon n (fun f => f.pushBack d.global single value) (by
      intro x; simp only [Field.pushBack]; split
      · exact ⟨rfl, rfl⟩
      · split
        · exact ⟨rfl, rfl⟩
        · split <;> exact ⟨rfl, rfl⟩)
  | setPadSize n pad =>
    exact hon n (fun f => f.setPadSize d.nbBuf pad) (by
      intro x
      obtain ⟨_, _, _, h⟩ := Field.resize_frame { x with pad := pad } d.nbBuf
      simp only [Field.setPadSize, h]
      exact ⟨trivial, trivial⟩)
  | setZero n => exact hon n Field.setZero (fun x => ⟨rfl, rfl⟩)
  | write n i v =>
    exact hon n (fun f => f.write i v) (by
      intro x; simp only [Field.write]; split <;> exact ⟨rfl, rfl⟩)
  | cycle pre =>
    simp only [Coll.step, cycle]
    split <;> exact hsame
  | clone src dst ow =>
    simp only [Coll.step]
    rcases clone_cases srt d src dst ow with h1 | ⟨x, h1, _, h2⟩ | ⟨x, vals, h1, h2, _, h3⟩ |
      ⟨x, y, vals, c1, h1, h1', h2, h3, h4, h5⟩
    · rw [h1]; exact hsame
    · rw [h2]; exact ⟨g, register_keeps _ _ _ _ _ _ _ hg, g1, g2⟩
    · rw [h3]; exact hupd dst (fun x => { x with vals := vals }) (fun x => ⟨rfl, rfl⟩) x h1
    · rw [h5]
      have hne : name ≠ dst := by rintro rfl; rw [hg] at h1'; cases h1'
      refine ⟨g, ?_, g1, g2⟩
      simp only [SMap.find_insert_ne _ _ hne]
      subst h2
      exact register_keeps _ _ _ _ _ _ _ hg

/-- **C10** A registered field stays registered under its name, with its type and unit, until it is
popped. -/
theorem C10_persists {srt : SortFn} {c c' : Coll α U} (hw : c.WF) {name : String} {f : Field α U}
    (hf : c.fields.find name = some f) {ops : List (Op α U)} (hp : Op.pop name ∉ ops)
    (hr : c.run srt ops = some c') :
    ∃ f', c'.fields.find name = some f' ∧ f'.ty = f.ty ∧ f'.unit = f.unit := by
  have key : c'.WF ∧ ∃ f', c'.fields.find name = some f' ∧ f'.ty = f.ty ∧ f'.unit = f.unit := by
    refine run_induct srt (fun d => d.WF ∧ ∃ f', d.fields.find name = some f' ∧ f'.ty = f.ty ∧
      f'.unit = f.unit) ⟨hw, f, hf, rfl, rfl⟩ ?_ hr
    rintro d op ⟨hd, g, hg, g1, g2⟩ hop
    exact ⟨hd.step srt op, step_keeps srt hd hg g1 g2 op (fun h => hp (h ▸ hop))⟩
  exact key.2

example : ∃ f, exAfter.fields.find "strain" = some f ∧
    (exAfter.run stableSort [.pop "flag", .clone "strain" "copy" false, .setZero "strain"]).isSome := by
  refine ⟨_, rfl, by decide +kernel⟩

/-! ## C11 -/

/-- The full claim: after any program every field has the allocated size once the collection is
initialised. -/
def C11_statement : Prop :=
  ∀ (srt : SortFn), SortSpec srt → ∀ (c c' : Coll Int String) (global : Bool) (order : StorageOrder)
    (sub : SMap String Int), sub.Sorted → (∀ tag n, sub.find tag = some n → 1 ≤ n) →
    mk' global 2 order sub = .ok c → ∀ ops, c.run srt ops = some c' → c'.initialised = true →
    ∀ name f, c'.fields.find name = some f → 1 ≤ f.nbComp →
      (f.vals.length : Int) = f.nbComp * f.nbSub * c'.nbBuf + f.pad

/-- **C11** is false: `push_back` is still accepted after initialisation (field_typed.cc 220-240 do not
check it) and makes the field larger than the collection. -/
theorem C11_false : ¬ C11_statement := by
  intro h
  have hrun : exLocal.run stableSort [.addPixel 7, .register "a" .int (.num 1) "pixel" "" false, .initLocal,
      .pushBack "a" false [3]] = some ((exLocal.run stableSort [.addPixel 7,
        .register "a" .int (.num 1) "pixel" "" false, .initLocal, .pushBack "a" false [3]]).getD exLocal) := by
    decide +kernel
  have hb := h stableSort stableSort_spec exLocal _ false .colMajor [("quad", 4)] (by simp [SMap.Sorted])
    (by intro tag n hn; simp [SMap.find] at hn; omega) exLocal_made _ hrun (by decide +kernel) "a"
    ⟨.int, [1], 1, 1, "pixel", "", 0, 2, [0, 3], false⟩ (by decide +kernel) (by decide)
  revert hb
  decide +kernel

/-- **C11** In every state reached by calls with positive component numbers, and in which `push_back` is
used only before initialisation, every field of an initialised collection has a known number of
sub-points, owns `nb_components*nb_sub_pts*nb_buffer_pixels + padding` entries, and its data pointer
refers to that buffer.  (Full claim: `C11_statement`; missing: `push_back` after initialisation and
component numbers below one.) -/
theorem C11_sizes_partial {srt : SortFn} {global : Bool} {dim : Int} {order : StorageOrder}
    {sub : SMap String Int} (hs : sub.Sorted)
    (hv : ∀ tag n, sub.find tag = some n → n = Unknown ∨ 1 ≤ n) {c0 c : Coll α U}
    (hc : mk' global dim order sub = .ok c0) (hr : Reachable srt Adm c0 c) (hi : c.initialised = true) :
    0 ≤ c.nbBuf ∧ ∀ name f, c.fields.find name = some f → 1 ≤ f.nbSub ∧
      (f.vals.length : Int) = f.nbComp * f.nbSub * c.nbBuf + f.pad ∧ f.fresh = true := by
  have hinv : SizeInv c := by
    clear hi
    induction hr with
    | start => exact mk'_sizeInv hs hv hc
    | call op _ ha hub ih => exact ih.step op ha hub
  refine ⟨hinv.buf hi, ?_⟩
  intro name f hf
  obtain ⟨h1, h2, h3⟩ := hinv.size hi name f hf
  refine ⟨?_, h2, h3⟩
  rcases hinv.sub_pos hf with h | h
  · exact absurd h h1
  · exact h

example : Reachable stableSort Adm exColl exAfter ∧ exAfter.initialised = true := by
  refine ⟨?_, by decide +kernel⟩
  refine reachable_of_run (ops := exProgram) ?_ Reachable.start exAfter_run
  intro d op hop
  simp only [exProgram, List.mem_cons, List.mem_nil_iff, or_false] at hop
  rcases hop with rfl | rfl | rfl | rfl <;> simp [Adm, Comps.toNb, getSize]

/-! ## C12 -/

/-- **C12** Once the number of sub-points of a tag is known it never changes. -/
theorem C12_write_once {srt : SortFn} {c c' : Coll α U} {ops : List (Op α U)}
    (hr : c.run srt ops = some c') {tag : String} {n : Int} (h : c.subPts.find tag = some n)
    (hn : n ≠ Unknown) : c'.subPts.find tag = some n :=
  run_induct srt (fun d => d.subPts.find tag = some n) h
    (fun d op hd _ => step_mono d srt op tag n hd hn) hr

example : exColl.subPts.find "quad" = some 4 ∧
    (exColl.run stableSort [.setNbSubPts "quad" 5, .setNbSubPts "node" 2]).map (fun c => c.subPts) =
      some [("node", 2), ("pixel", 1), ("quad", 4)] := by decide +kernel

/-- **C12** `set_nb_sub_pts` succeeds exactly for positive values of tags that are free or have that
value, and then the value is reported; otherwise it fails and changes nothing. -/
theorem C12_set (c : Coll α U) (tag : String) (n : Int) :
    ((1 ≤ n ∧ ∀ k, c.subPts.find tag = some k → k = Unknown ∨ k = n) ∧
      (c.setNbSubPts tag n).1 = .ok () ∧ (c.setNbSubPts tag n).2.getSubConst tag = .ok n) ∨
    ((n < 1 ∨ ∃ k, c.subPts.find tag = some k ∧ k ≠ Unknown ∧ k ≠ n) ∧
      c.setNbSubPts tag n = (.throw .fieldCollectionError, c)) := by
  rcases c.setNbSubPts_cases tag n with ⟨h1, h2⟩ | ⟨h1, h2, h3⟩
  · exact Or.inr ⟨h2, h1⟩
  · refine Or.inl ⟨⟨h1, h2⟩, ?_, ?_⟩
    · rw [h3]
    · rw [h3]; simp [getSubConst, SMap.find_insert_self]

example : (exColl.setNbSubPts "quad" 5).1 = .throw .fieldCollectionError ∧
    (exColl.setNbSubPts "node" 0).1 = .throw .fieldCollectionError ∧
    (exColl.setNbSubPts "node" 2).1 = .ok () := by decide +kernel

/-- **C12** Setting a number of sub-points reaches every registered field of that tag and no other. -/
theorem C12_set_fields {c c' : Coll α U} {tag : String} {n : Int} {u : Unit}
    (h : c.setNbSubPts tag n = (.ok u, c')) (name : String) :
    c'.fields.find name = (c.fields.find name).map
      (fun f => if f.tag = tag then { f with nbSub := n } else f) := by
  rcases c.setNbSubPts_cases tag n with ⟨h1, h2⟩ | ⟨_, _, h3⟩
  · rw [h1] at h; cases h
  · rw [h3] at h
    cases h
    simp only [SMap.find_map]
    rfl

example : (exAfter.setNbSubPts "quad" 4).1 = .ok () := by decide +kernel

/-- **C12** The trivial sub-division always has one point. -/
theorem C12_pixel {srt : SortFn} {global : Bool} {dim : Int} {order : StorageOrder}
    {sub : SMap String Int} {c c' : Coll α U} (hc : mk' global dim order sub = .ok c)
    {ops : List (Op α U)} (hr : c.run srt ops = some c') : c'.getSubConst pixelTag = .ok 1 := by
  have h0 : c.subPts.find pixelTag = some 1 := by
    rw [(mk'_spec hc).2]; exact SMap.find_insert_self _ _ _
  have := C12_write_once hr h0 (by decide)
  simp [getSubConst, this]

example : exColl.run stableSort exProgram = some exAfter := exAfter_run

/-- **C12** Every field's number of sub-points is that of its tag, in every reachable state. -/
theorem C12_fields_agree {srt : SortFn} {global : Bool} {dim : Int} {order : StorageOrder}
    {sub : SMap String Int} (hs : sub.Sorted) {c c' : Coll α U} (hc : mk' global dim order sub = .ok c)
    {ops : List (Op α U)} (hr : c.run srt ops = some c') {name : String} {f : Field α U}
    (hf : c'.fields.find name = some f) : c'.getSubConst f.tag = .ok f.nbSub := by
  have h := run_induct srt WF (mk'_wf hs hc) (fun d op hd _ => hd.step srt op) hr
  simp [getSubConst, h.tags name f hf]

example : (exAfter.fields.find "strain").map (fun f => (f.tag, f.nbSub)) = some ("quad", 4) := by
  decide +kernel

/-- **C12** The values are positive or unknown, if those given to the constructor are: the constructor
does not check them. -/
theorem C12_positive {srt : SortFn} {global : Bool} {dim : Int} {order : StorageOrder}
    {sub : SMap String Int} (hs : sub.Sorted) (hv : ∀ tag n, sub.find tag = some n → n = Unknown ∨ 1 ≤ n)
    {c c' : Coll α U} (hc : mk' global dim order sub = .ok c) {ops : List (Op α U)}
    (hr : c.run srt ops = some c') {tag : String} {n : Int} (h : c'.subPts.find tag = some n) :
    n = Unknown ∨ 1 ≤ n := by
  have hinv : ∀ tag n, c'.subPts.find tag = some n → n = Unknown ∨ 1 ≤ n := by
    have hget : ∀ (d : Coll α U) (t : String),
        (∀ tag n, d.subPts.find tag = some n → n = Unknown ∨ 1 ≤ n) →
        ∀ tag n, (d.getSub t).2.subPts.find tag = some n → n = Unknown ∨ 1 ≤ n := by
      intro d t hd tag n h
      rw [getSub_find] at h
      split at h
      · cases h
        rw [getSub_fst]
        cases hg : d.subPts.find t with
        | none => exact Or.inl rfl
        | some k => exact hd t k hg
      · exact hd tag n h
    have hreg : ∀ (d : Coll α U) (name : String) (ty : ElemType) (comps : Comps) (t : String) (unit : U)
        (allow : Bool), (∀ tag n, d.subPts.find tag = some n → n = Unknown ∨ 1 ≤ n) →
        ∀ tag n, (d.register name ty comps t unit allow).2.subPts.find tag = some n →
          n = Unknown ∨ 1 ≤ n := by
      intro d name ty comps t unit allow hd
      rcases d.register_cases name ty comps t unit allow with
        ⟨g, _, h2, _⟩ | ⟨_, f, _, h2, _⟩ | ⟨_, _, _, h3⟩
      · rw [h2]; exact hd
      · rw [h2]; exact hget d t hd
      · rw [h3]; exact hget d t hd
    refine run_induct srt (fun d => ∀ tag n, d.subPts.find tag = some n → n = Unknown ∨ 1 ≤ n) ?_ ?_ hr
    · exact (mk'_sizeInv hs hv hc).sub
    · intro d op hd _
      cases op with
      | register name ty comps t unit allow => exact hreg d _ _ _ _ _ _ hd
      | registerState pre ty m n t unit allow =>
        exact registerState_induct (fun d => ∀ tag n, d.subPts.find tag = some n → n = Unknown ∨ 1 ≤ n)
          d pre ty m n t unit allow hd (hget d t hd) (fun e name he => hreg e _ _ _ _ _ _ he)
          (fun e s he => he)
      | pop name =>
        simp only [Coll.step]
        rcases d.pop_cases name with ⟨_, h2⟩ | ⟨f, _, h2⟩ <;> rw [h2] <;> exact hd
      | detached name ty shape t unit =>
        simp only [Coll.step, detached]
        have hm := hreg d name ty (.shape shape) t unit false hd
        rcases hr : d.register name ty (.shape shape) t unit false with ⟨r, c1⟩
        rw [hr] at hm
        cases r with
        | ok u =>
          simp only
          rcases c1.take_cases name with ⟨_, h2⟩ | ⟨f, _, h2⟩ <;> rw [h2] <;> exact hm
        | throw e => exact hm
        | ub => exact hm
      | setNbSubPts t k =>
        simp only [Coll.step]
        rcases d.setNbSubPts_cases t k with ⟨h1, _⟩ | ⟨hk, _, h1⟩ <;> rw [h1]
        · exact hd
        · intro tag n h
          simp only [SMap.find_insert] at h
          split at h
          · cases h; exact Or.inr hk
          · exact hd tag n h
      | getSub t => exact hget d t hd
      | initGlobal dom sub loc strides =>
        simp only [Coll.step]
        split
        · cases hi : d.initialised with
          | true => rw [(initGlobal_init hi).2]; exact hd
          | false => rw [(initGlobal_effect srt d dom sub loc strides hi).sub]; exact hd
        · exact hd
      | initGlobalOrder dom sub loc order =>
        simp only [Coll.step]
        split
        · cases hi : d.initialised with
          | true => rw [(initGlobalOrder_init hi).1]; exact hd
          | false => rw [(initGlobalOrder_effect srt d dom sub loc order hi).sub]; exact hd
        · exact hd
      | addPixel id =>
        simp only [Coll.step, addPixel]
        split
        · exact hd
        · split <;> exact hd
      | initLocal =>
        simp only [Coll.step]
        split
        · exact hd
        · cases hi : d.initialised with
          | true => rw [initLocal_init hi]; exact hd
          | false => rw [(initLocal_effect d hi).sub]; exact hd
      | reshape name shape => simp only [Coll.step, (onField_frame _ _ _).2.2]; exact hd
      | reshapeTag name shape t =>
        simp only [Coll.step]
        rcases d.reshapeTag_cases name shape t with ⟨_, h2⟩ | ⟨f, _, _, h2⟩ | ⟨f, h0, _, h2⟩ <;> rw [h2]
        · exact hd
        · exact hget d t hd
        · exact hget d t hd
      | pushBack name single value => simp only [Coll.step, (onField_frame _ _ _).2.2]; exact hd
      | setPadSize name pad => simp only [Coll.step, (onField_frame _ _ _).2.2]; exact hd
      | setZero name => simp only [Coll.step, (onField_frame _ _ _).2.2]; exact hd
      | write name i v => simp only [Coll.step, (onField_frame _ _ _).2.2]; exact hd
      | cycle pre =>
        simp only [Coll.step, cycle]
        split <;> exact hd
      | clone src dst ow =>
        simp only [Coll.step]
        rcases clone_cases srt d src dst ow with h1 | ⟨f, h1, _, h2⟩ | ⟨g, vals, h1, h2, _, h3⟩ |
          ⟨f, g, vals, c1, h1, _, h2, h3, h4, h5⟩
        · rw [h1]; exact hd
        · rw [h2]; exact hreg d _ _ _ _ _ _ hd
        · rw [h3]; exact hd
        · rw [h5]; subst h2; exact hreg d _ _ _ _ _ _ hd
  exact hinv tag n h

example : (mk' true 2 .colMajor [("quad", -3)] : Res (Coll Int String)) =
    .ok (Coll.empty true 2 .colMajor [("pixel", 1), ("quad", -3)]) := by decide +kernel

/-! ## C13 -/

/-- **C13** Once a collection is initialised, no program changes the number of pixels, the buffer size,
the pixel indices, the domain, the pixels' description or the map from global to local indices. -/
theorem C13_fixed {srt : SortFn} {c c' : Coll α U} (hi : c.initialised = true) {ops : List (Op α U)}
    (hr : c.run srt ops = some c') :
    c'.initialised = true ∧ c'.nbPixels = c.nbPixels ∧ c'.nbBuf = c.nbBuf ∧
      c'.pixelIndices = c.pixelIndices ∧ c'.domainPts = c.domainPts ∧ c'.pixels = c.pixels ∧
      c'.g2l = c.g2l ∧ c'.order = c.order ∧ c'.global = c.global ∧ c'.dim = c.dim := by
  have h := run_induct srt (fun d => d.base = c.base) rfl (fun d op hd _ => by
    have hdi : d.initialised = true := by
      simp only [base, Prod.mk.injEq] at hd
      rw [hd.2.2.2.2.2.2.1]; exact hi
    rw [step_base hdi srt op]; exact hd) hr
  simp only [base, Prod.mk.injEq] at h
  obtain ⟨b1, b2, b3, b4, b5, b6, b7, b8, b9, b10⟩ := h
  exact ⟨by rw [b7, hi], b4, b5, b6, b8, b9, b10, b3, b1, b2⟩

example : exAfter.initialised = true ∧ exAfter.nbPixels = 6 ∧
    (exAfter.run stableSort [.initGlobalOrder [4, 4] [] [] .automatic, .pop "flag"]).isSome := by
  decide +kernel

/-- **C13** Initialising twice fails and changes nothing, as does adding a pixel. -/
theorem C13_second (srt : SortFn) {c : Coll α U} (hi : c.initialised = true) (op : Op α U)
    (hop : op.setsPixels = true) (hkind : c.global = true ↔ ∃ a b d e, op = .initGlobal a b d e ∨
      ∃ o, op = .initGlobalOrder a b d o) :
    (c.step srt op).1 ≠ .ok () ∧ (c.step srt op).2 = c := by
  cases op with
  | initGlobal dom sub loc strides =>
    have hg : c.global = true := hkind.2 ⟨_, _, _, _, Or.inl rfl⟩
    simp only [Coll.step, hg, if_true]
    obtain ⟨⟨e, h1⟩, h2⟩ := initGlobal_init (srt := srt) (dom := dom) (sub := sub) (loc := loc)
      (strides := strides) hi
    rw [h1]
    exact ⟨by simp, h2⟩
  | initGlobalOrder dom sub loc order =>
    have hg : c.global = true := hkind.2 ⟨dom, sub, loc, [], Or.inr ⟨order, rfl⟩⟩
    simp only [Coll.step, hg, if_true]
    obtain ⟨h1, h2⟩ := initGlobalOrder_init (srt := srt) (dom := dom) (sub := sub) (loc := loc)
      (order := order) hi
    exact ⟨h2, h1⟩
  | addPixel id =>
    have hg : c.global = false := by
      by_contra hcon
      obtain ⟨_, _, _, _, h | ⟨_, h⟩⟩ := hkind.1 (by simpa using hcon) <;> cases h
    simp [Coll.step, hg, addPixel, hi]
  | initLocal =>
    have hg : c.global = false := by
      by_contra hcon
      obtain ⟨_, _, _, _, h | ⟨_, h⟩⟩ := hkind.1 (by simpa using hcon) <;> cases h
    simp [Coll.step, hg, initLocal_init hi]
  | _ => simp [Op.setsPixels] at hop

example : exAfter.initialised = true ∧ exAfter.global = true ∧
    (Op.initGlobalOrder [4, 4] [] [] .automatic : Op Int String).setsPixels = true := by decide +kernel

/-! ## C14 -/

/-- The full claim: an `initialise` that throws leaves the collection as it was. -/
def C14_statement : Prop :=
  ∀ (srt : SortFn), SortSpec srt → ∀ (global : Bool) (dim : Int) (order : StorageOrder)
    (sub : SMap String Int) (c0 c : Coll Int String) (ops : List (Op Int String)) (op : Op Int String),
    mk' global dim order sub = .ok c0 → c0.run srt ops = some c →
    ((∃ d s l t, op = .initGlobal d s l t) ∨ (∃ d s l o, op = .initGlobalOrder d s l o) ∨
      op = .initLocal) → (∃ e, (c.step srt op).1 = .throw e) → (c.step srt op).2 = c

/-- A local collection with two pixels; `b` has too many entries. -/
def exBad : List (Op Int String) :=
  [.addPixel 3, .addPixel 8, .register "a" .int (.num 1) "pixel" "" false,
   .register "b" .int (.num 1) "pixel" "" false,
   .pushBack "b" false [1], .pushBack "b" false [2], .pushBack "b" false [3]]

/-- **C14** is false: the fields visited before the failing one stay allocated. -/
theorem C14_false : ¬ C14_statement := by
  intro h
  have hr : exLocal.run stableSort exBad = some ((exLocal.run stableSort exBad).getD exLocal) := by
    decide +kernel
  have := h stableSort stableSort_spec false 2 .colMajor _ exLocal _ exBad .initLocal exLocal_made hr
    (Or.inr (Or.inr rfl)) ⟨.fieldCollectionError, by decide +kernel⟩
  revert this
  decide +kernel

/-- Such a failure can make the collection unusable: with padded strides the fields allocated by the
failing call no longer pass the check of the next one, although the cause (an unknown number of
sub-points) was removed (field_collection.cc 374-393 compares the entries, which are per buffer pixel,
with the entries per pixel). -/
theorem C14_retry_fails :
    (exColl.run stableSort [.register "a" .int (.num 1) "pixel" "" false,
      .register "b" .int (.num 1) "node" "" false, .initGlobal [3, 2] [] [] [1, 4],
      .setNbSubPts "node" 2]).map (fun c => (c.initGlobal stableSort [3, 2] [] [] [1, 4]).1) =
        some (.throw .fieldCollectionError) ∧
    (exColl.run stableSort [.register "a" .int (.num 1) "pixel" "" false,
      .register "b" .int (.num 1) "node" "" false,
      .setNbSubPts "node" 2]).map (fun c => (c.initGlobal stableSort [3, 2] [] [] [1, 4]).1) =
        some (.ok ()) := by
  decide +kernel

/-- What holds of every `initialise` that does not succeed: the collection stays uninitialised, with the
same names, state fields and sub-point numbers, and every field keeps everything but its buffer
and count of entries. -/
theorem C14_failure_partial (srt : SortFn) {c : Coll α U} (hi : c.initialised = false) (op : Op α U)
    (hop : (∃ d s l t, op = .initGlobal d s l t) ∨ (∃ d s l o, op = .initGlobalOrder d s l o) ∨
      op = .initLocal) (hf : (c.step srt op).1 ≠ .ok ()) :
    (c.step srt op).2.initialised = false ∧ (c.step srt op).2.fields.keys = c.fields.keys ∧
    (c.step srt op).2.states = c.states ∧ (c.step srt op).2.subPts = c.subPts ∧
    ∀ name f, c.fields.find name = some f → ∃ cur vals fresh,
      (c.step srt op).2.fields.find name = some { f with cur := cur, vals := vals, fresh := fresh } := by
  have key : ∀ r : Res Unit × Coll α U, InitEffect c r → r.1 ≠ .ok () →
      r.2.initialised = false ∧ r.2.fields.keys = c.fields.keys ∧
      r.2.states = c.states ∧ r.2.subPts = c.subPts ∧
      ∀ name f, c.fields.find name = some f → ∃ cur vals fresh,
        r.2.fields.find name = some { f with cur := cur, vals := vals, fresh := fresh } := by
    intro r he hr
    refine ⟨?_, he.keys, he.states, he.sub, he.forth⟩
    cases h : r.2.initialised with
    | true => exact absurd (he.init.1 h) hr
    | false => rfl
  rcases hop with ⟨d, s, l, t, rfl⟩ | ⟨d, s, l, o, rfl⟩ | rfl <;> simp only [Coll.step] at hf ⊢
  · split
    · rename_i hg
      rw [if_pos hg] at hf
      exact key _ (initGlobal_effect srt c d s l t hi) hf
    · rename_i hg
      rw [if_neg hg] at hf; exact absurd rfl hf
  · split
    · rename_i hg
      rw [if_pos hg] at hf
      exact key _ (initGlobalOrder_effect srt c d s l o hi) hf
    · rename_i hg
      rw [if_neg hg] at hf; exact absurd rfl hf
  · split
    · rename_i hg
      rw [if_pos hg] at hf; exact absurd rfl hf
    · rename_i hg
      rw [if_neg hg] at hf
      exact key _ (initLocal_effect c hi) hf

example : (((exLocal.run stableSort exBad).getD exLocal).step stableSort .initLocal).1 ≠ .ok () ∧
    ((exLocal.run stableSort exBad).getD exLocal).initialised = false := by decide +kernel

/-- A domain without pixels, a negative subdomain, or inconsistent dimensions of subdomain, locations
and strides are rejected before any field is touched; in the first two cases the collection is
exactly as before. -/
theorem C14_arguments_partial {srt : SortFn} (hsrt : SortSpec srt) (c : Coll α U)
    (dom sub loc strides : List Int) (hi : c.initialised = false) :
    ((getSize dom ≤ 0 ∨ getSize (subdomainOr dom sub) < 0) →
      c.initGlobal srt dom sub loc strides = (.throw .fieldCollectionError, c)) ∧
    (Pos (subdomainOr dom sub) → (strides.length ≠ (subdomainOr dom sub).length ∨
        (DynamicPixels.fillLoc (subdomainOr dom sub) loc).length ≠ (subdomainOr dom sub).length) →
      (∃ e, (c.initGlobal srt dom sub loc strides).1 = .throw e) ∧
      (c.initGlobal srt dom sub loc strides).2.fields = c.fields) := by
  constructor
  · rintro (h | h)
    · simp [initGlobal, h]
    · simp only [initGlobal, h]
      split <;> simp
  · intro hp hl
    unfold initGlobal
    split
    · exact ⟨⟨_, rfl⟩, rfl⟩
    · simp only
      split
      · exact ⟨⟨_, rfl⟩, rfl⟩
      · split
        · exact ⟨⟨_, rfl⟩, rfl⟩
        · split
          · exact ⟨⟨_, rfl⟩, rfl⟩
          · rename_i hub
            exfalso
            unfold DynamicPixels.mkStrided at hub
            by_cases hs : strides.length = (subdomainOr dom sub).length
            · obtain ⟨b, hb, _⟩ := isBufferContiguous_iff hsrt hs hp
              have hl' : (DynamicPixels.fillLoc (subdomainOr dom sub) loc).length ≠ (subdomainOr dom sub).length := by
                rcases hl with h | h
                · exact absurd hs h
                · exact h
              simp [hs, computeAxesOrder, hb, Ne.symm hl'] at hub
            · simp [hs] at hub
          · rename_i px hpx
            exfalso
            obtain ⟨h1, h2, _⟩ := DynamicPixels.mkStrided_inv hsrt hp hpx
            rcases hl with h | h
            · exact h h1
            · exact h h2

example : Pos (subdomainOr [3, 2] []) ∧ exColl.initialised = false ∧
    (exColl.initGlobal stableSort [3, 2] [] [0] [1, 3]).1 = .throw .runtimeError := by
  refine ⟨by simp [Pos, subdomainOr], by decide, by decide +kernel⟩

/-! ## C15 -/

/-- **C15** `generate_unique_name` ends, whatever the counter, and its name is not used in the
collection. -/
theorem C15_unique_name (c : Coll α U) (counter : Nat) :
    ∃ name next, c.generateName (c.fields.length + 1) counter = some (name, next) ∧
      name ∉ c.fields.keys ∧ counter < next := by
  obtain ⟨⟨name, next⟩, h⟩ := Option.isSome_iff_exists.1 (c.generateName_total counter)
  obtain ⟨h1, h2, _⟩ := generateName_spec c _ _ _ _ h
  refine ⟨name, next, h, ?_, h2⟩
  intro hm
  have := SMap.find_isSome_iff.2 hm
  unfold fieldExists at h1
  rw [this] at h1; cases h1

example : ((exColl.register "generated_unique_name_0" .int (.num 1) "pixel" "" false).2).generateName 2 0 =
    some ("generated_unique_name_1", 2) := by decide +kernel

/-- Two names generated one after the other differ, even if the first was not used. -/
theorem C15_names_differ (c c' : Coll α U) {counter n n' : Nat} {fuel fuel' : Nat} {name name' : String}
    (h : c.generateName fuel counter = some (name, n)) (h' : c'.generateName fuel' n = some (name', n')) :
    name ≠ name' := by
  obtain ⟨_, h2, h3⟩ := generateName_spec c _ _ _ _ h
  obtain ⟨_, h2', h3'⟩ := generateName_spec c' _ _ _ _ h'
  rw [h3, h3']
  intro heq
  rw [String.append_right_inj] at heq
  have := Nat.repr_injective heq
  omega

example : exColl.generateName 1 5 = some ("generated_unique_name_5", 6) ∧
    exAfter.generateName 1 6 = some ("generated_unique_name_6", 7) := by decide +kernel

/-- **C15** Creating a detached field, successfully or not, leaves the registered fields, state fields
and known sub-point numbers as they were; on success the field has the requested attributes. -/
theorem C15_detached {c : Coll α U} (hs : c.fields.Sorted) (name : String) (ty : ElemType)
    (shape : List Int) (tag : String) (unit : U) :
    (c.detached name ty shape tag unit).2.fields = c.fields ∧
    (c.detached name ty shape tag unit).2.states = c.states ∧
    (c.detached name ty shape tag unit).2.base = c.base ∧
    (∀ t n, c.subPts.find t = some n → (c.detached name ty shape tag unit).2.subPts.find t = some n) ∧
    (∀ f, (c.detached name ty shape tag unit).1 = .ok f →
      f.ty = ty ∧ f.shape = shape ∧ f.tag = tag ∧ f.unit = unit) := by
  obtain ⟨g1, g2, g3⟩ := c.getSub_frame tag
  rcases detached_cases hs name ty shape tag unit with ⟨f, h1, _, f1, f2, f3, f4, h2⟩ | ⟨⟨e, h1⟩, h2 | h2⟩
  · rw [h2, h1]
    refine ⟨g2, g3, g1, fun t n h => getSub_tags tag h, ?_⟩
    intro f' hf'
    cases hf'
    exact ⟨f1, f2, f3, f4⟩
  · rw [h2, h1]
    exact ⟨rfl, rfl, rfl, fun _ _ h => h, by intro f hf; cases hf⟩
  · rw [h2, h1]
    exact ⟨g2, g3, g1, fun t n h => getSub_tags tag h, by intro f hf; cases hf⟩

example : exAfter.fields.Sorted ∧
    (exAfter.detached "generated_unique_name_0" .real [1] "pixel" "").1 =
      .ok ⟨.real, [1], 1, 1, "pixel", "", 0, 6, [0, 0, 0, 0, 0, 0], true⟩ := by
  refine ⟨by unfold SMap.Sorted; decide +kernel, by decide +kernel⟩

/-! ## C16 -/

/-- The pixel added by a call (none if the collection is initialised). -/
def addedPixel (c : Coll α U) : Op α U → List Int
  | .addPixel id => if c.initialised then [] else [id]
  | _ => []

/-- The pixels a program adds: the arguments of its calls of `add_pixel` made before initialisation. -/
def addedPixels (srt : SortFn) (c : Coll α U) : List (Op α U) → List Int
  | [] => []
  | op :: ops =>
      addedPixel c op ++ addedPixels srt (c.step srt op).2 ops

/-- **C16** The pixel indices of a local collection are the added pixels in the order they were added. -/
theorem C16_order {srt : SortFn} {c' : Coll α U} {ops : List (Op α U)} :
    ∀ {c : Coll α U}, c.global = false → c.run srt ops = some c' →
      c'.pixelIndices = c.pixelIndices ++ addedPixels srt c ops := by
  induction ops with
  | nil => intro c _ h; simp [run] at h; subst h; simp [addedPixels]
  | cons op ops ih =>
    intro c hg h
    have hstep : (c.step srt op).2.global = false ∧ (c.step srt op).2.pixelIndices =
        c.pixelIndices ++ addedPixel c op := by
      by_cases hs : op.setsPixels = false
      · have hb := step_base_other (c := c) srt op hs
        simp only [base, Prod.mk.injEq] at hb
        refine ⟨by rw [hb.1, hg], ?_⟩
        rw [hb.2.2.2.2.2.1]
        cases op <;> simp_all [Op.setsPixels, addedPixel]
      · cases op with
        | initGlobal dom sub loc strides => simp [Coll.step, hg, addedPixel]
        | initGlobalOrder dom sub loc order => simp [Coll.step, hg, addedPixel]
        | addPixel id =>
          simp only [Coll.step, hg, addPixel, Bool.false_eq_true, if_false]
          split <;> simp_all [addedPixel]
        | initLocal =>
          simp only [Coll.step, hg, Bool.false_eq_true, if_false]
          cases hi : c.initialised with
          | true => rw [initLocal_init hi]; simp [hg, addedPixel]
          | false =>
            have hb := initLocal_base hi
            simp only [base, Prod.mk.injEq] at hb
            exact ⟨by rw [hb.1, hg], by rw [hb.2.2.2.2.2.1]; simp [addedPixel]⟩
        | _ => exact absurd rfl hs
    have hrun : (c.step srt op).2.run srt ops = some c' := by
      unfold run at h
      rcases hst : c.step srt op with ⟨r, c1⟩
      rw [hst] at h
      cases r with
      | ub => simp at h
      | ok u => exact h
      | throw e => exact h
    rw [ih hstep.1 hrun, hstep.2]
    simp only [addedPixels, List.append_assoc]

example : (exLocal.run stableSort [.addPixel 9, .addPixel 4, .initLocal, .addPixel 1]).map
    (fun c => (c.pixelIndices, c.nbPixels, c.g2l)) = some ([9, 4], 2, [(4, 1), (9, 0)]) ∧
    addedPixels stableSort exLocal [.addPixel 9, .addPixel 4, .initLocal, .addPixel 1] = [9, 4] := by
  decide +kernel

/-- **C16** In every reachable state of a local collection the map from global to local indices gives
exactly the first position holding that pixel; an initialised collection has one pixel per index. -/
theorem C16_global_to_local {srt : SortFn} {dim : Int} {order : StorageOrder} {sub : SMap String Int}
    {c c' : Coll α U} (hc : mk' false dim order sub = .ok c) {ops : List (Op α U)}
    (hr : c.run srt ops = some c') :
    (∀ id k, c'.g2l.find id = some k ↔ ∃ i : Nat, k = i ∧ c'.pixelIndices[i]? = some id ∧
      ∀ j < i, c'.pixelIndices[j]? ≠ some id) ∧
    (∀ id, id ∈ c'.pixelIndices ↔ (c'.g2l.find id).isSome) ∧
    (c'.initialised = true → c'.nbPixels = c'.pixelIndices.length) := by
  have hinv : PixInv srt c' := run_induct srt (PixInv srt) (mk'_pixInv srt hc)
    (fun d op hd _ => hd.step op) hr
  have hg : c'.global = false := by
    refine run_induct srt (fun d => d.global = false) ?_ ?_ hr
    · rw [(mk'_spec hc).2]; rfl
    · intro d op hd _
      by_cases hs : op.setsPixels = false
      · have hb := step_base_other (c := d) srt op hs
        simp only [base, Prod.mk.injEq] at hb
        rw [hb.1]; exact hd
      · cases op with
        | initGlobal dom sub loc strides => simp [Coll.step, hd]
        | initGlobalOrder dom sub loc order => simp [Coll.step, hd]
        | addPixel id =>
          simp only [Coll.step, hd, addPixel, Bool.false_eq_true, if_false]
          split
          · exact hd
          · rfl
        | initLocal =>
          simp only [Coll.step, hd, Bool.false_eq_true, if_false]
          cases hi : d.initialised with
          | true => rw [initLocal_init hi]; exact hd
          | false => rw [(initLocal_effect d hi).kind.1]; exact hd
        | _ => exact absurd rfl hs
  have hf := hinv.first hg
  refine ⟨hf, ?_, fun hi => (hinv.loc hg hi).1⟩
  intro id
  constructor
  · intro hm
    have hex : ∃ i : Nat, c'.pixelIndices[i]? = some id := List.mem_iff_getElem?.1 hm
    classical
    have := (hf id (Nat.find hex)).2 ⟨Nat.find hex, rfl, Nat.find_spec hex, fun j hj => Nat.find_min hex hj⟩
    rw [this]; rfl
  · intro hs
    obtain ⟨k, hk⟩ := Option.isSome_iff_exists.1 hs
    obtain ⟨i, _, h, _⟩ := (hf id k).1 hk
    exact List.mem_iff_getElem?.2 ⟨i, h⟩

example : (exLocal.run stableSort [.addPixel 9, .addPixel 4, .addPixel 9]).map (fun c => c.g2l) =
    some [(4, 1), (9, 0)] := by decide +kernel

/-- **C16** If no pixel was added twice the two numberings are inverse to each other. -/
theorem C16_inverse {srt : SortFn} {dim : Int} {order : StorageOrder} {sub : SMap String Int}
    {c c' : Coll α U} (hc : mk' false dim order sub = .ok c) {ops : List (Op α U)}
    (hr : c.run srt ops = some c') (hnd : (addedPixels srt c ops).Nodup) (id : Int) (i : Nat) :
    c'.g2l.find id = some (i : Int) ↔ c'.pixelIndices[i]? = some id := by
  have hg0 : c.global = false := by rw [(mk'_spec hc).2]; rfl
  have hp0 : c.pixelIndices = [] := by rw [(mk'_spec hc).2]; rfl
  have ho := C16_order hg0 hr
  rw [hp0, List.nil_append] at ho
  rw [← ho] at hnd
  rw [(C16_global_to_local hc hr).1]
  constructor
  · rintro ⟨j, hj, h, _⟩
    rw [show i = j by omega]; exact h
  · intro h
    refine ⟨i, rfl, h, ?_⟩
    intro j hj hcon
    have hi : i < c'.pixelIndices.length := by
      by_contra hc
      rw [List.getElem?_eq_none (by omega)] at h; cases h
    have := (List.nodup_iff_getElem?_ne_getElem?.1 hnd) j i hj hi
    exact this (by rw [hcon, h])

example : (addedPixels stableSort exLocal [.addPixel 9, .addPixel 4]).Nodup := by decide +kernel

end Verif.Props
