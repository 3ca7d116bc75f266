import Verif.Lemmas.TypedAccess
/-
Property C76: access to fields by element type.

Fields and state fields of different element types sit in one collection; typed references to them are
obtained by unchecked casts (`static_cast`), see `Field.castTo` and `StateField.castTo`: a cast to another type
is undefined behaviour (`ub`).
-/
set_option linter.unusedSectionVars false

namespace Verif.Props
open Verif Verif.Ccoord Verif.Layout Verif.Collection Verif.Collection.Coll

variable {α U : Type} [Inhabited α] [DecidableEq U]

/-- **C76** `get_real_field` and its sisters return the field registered under the name if it has their element
type, and throw otherwise: one exception if there is no such field, another if it has another type.  They never
cast to a wrong type. -/
theorem C76_get (c : Coll α U) (ty : ElemType) (name : String) :
    (∀ f, c.pyGetTyped ty name = .ok f ↔ c.fields.find name = some f ∧ f.ty = ty) ∧
    (c.pyGetTyped ty name = .throw .fieldCollectionError ↔ c.fields.find name = none) ∧
    (c.pyGetTyped ty name = .throw .runtimeError ↔ ∃ f, c.fields.find name = some f ∧ f.ty ≠ ty) ∧
    c.pyGetTyped ty name ≠ .ub := by
  unfold Coll.pyGetTyped Coll.getField
  cases c.fields.find name with
  | none => simp
  | some f =>
    by_cases h : f.ty = ty
    · subst h
      simp only [Field.assertType, Field.castTo, Res.ok_bind, ne_eq, not_true_eq_false, if_false, if_true]
      refine ⟨fun g => ⟨fun h => ?_, fun h => ?_⟩, by simp, ?_, by simp⟩
      · cases h; exact ⟨rfl, rfl⟩
      · cases h.1; rfl
      · refine ⟨fun h => (by cases h), ?_⟩
        rintro ⟨g, hg, hne⟩
        cases hg
        exact absurd rfl hne
    · simp only [Field.assertType, Field.castTo, Res.ok_bind, ne_eq, h, not_false_eq_true, if_true,
        Res.throw_bind]
      refine ⟨fun g => ⟨fun h => (by cases h), fun h' => ?_⟩, by simp, ⟨fun _ => ⟨f, rfl, h⟩, fun _ => trivial⟩,
        by simp⟩
      cases h'.1
      exact absurd h'.2 h

example : (exAfter.pyGetTyped .int "flag" >>= fun f => .ok f.ty) = .ok .int ∧ (exAfter.pyGetTyped .real "flag") = .throw .runtimeError ∧
    (exAfter.pyGetTyped .real "flags") = .throw .fieldCollectionError := by
  decide +kernel

/-- **C76** `safe_cast` returns the same field exactly if number of components, sub-division and element type
are the expected ones, and throws a `FieldError` otherwise. -/
theorem C76_cast (ty : ElemType) (nb : Int) (tag : String) (f : Field α U) :
    (f.safeCastWith ty nb tag = .ok f ↔ f.nbComp = nb ∧ f.tag = tag ∧ f.ty = ty) ∧
    (f.safeCastWith ty nb tag = .throw .fieldError ↔ ¬ (f.nbComp = nb ∧ f.tag = tag ∧ f.ty = ty)) ∧
    (f.safeCast ty = .ok f ↔ f.ty = ty) ∧ (f.safeCast ty = .throw .fieldError ↔ f.ty ≠ ty) := by
  unfold Field.safeCastWith Field.safeCast
  by_cases h1 : f.nbComp = nb <;> by_cases h2 : f.tag = tag <;> by_cases h3 : f.ty = ty <;> simp [h1, h2, h3]

example : ((Field.new .int (.num 3) 4 "quad" "m" : Field Int String).safeCastWith .int 3 "quad") =
      .ok (Field.new .int (.num 3) 4 "quad" "m") ∧
    ((Field.new .int (.num 3) 4 "quad" "m" : Field Int String).safeCastWith .real 3 "quad") =
      .throw .fieldError := by
  decide +kernel

/-- **C76** The reference a registration returns, for a new or for an existing field, is one to the field
registered under that name, and that field has the requested element type, sub-division and unit; the cast is
never to a wrong type. -/
theorem C76_register (c : Coll α U) (name : String) (ty : ElemType) (comps : Comps) (tag : String) (unit : U)
    (allow : Bool) :
    (c.registerRef name ty comps tag unit allow).1 ≠ .ub ∧
    (∀ f c1, c.registerRef name ty comps tag unit allow = (.ok f, c1) →
      c1.fields.find name = some f ∧ f.ty = ty ∧ f.tag = tag ∧ f.unit = unit ∧
      (∀ g, c.fields.find name = some g → f = g)) ∧
    (∀ f, c.fields.find name = some f → f.ty ≠ ty →
      ∃ e, c.registerRef name ty comps tag unit allow = (.throw e, c)) := by
  unfold Coll.registerRef
  rcases c.register_cases name ty comps tag unit allow with
    ⟨f, hf, h2, h3, h4⟩ | ⟨hn, f, hf, hx, _⟩ | ⟨hn, _, ⟨e, hx⟩, _⟩
  · rcases hr : c.register name ty comps tag unit allow with ⟨r, c1⟩
    rw [hr] at h2 h3 h4
    simp only at h2 h3 h4
    subst h2
    cases r with
    | ok u =>
      obtain ⟨_, e1, _, e2, e3⟩ := h4.1 rfl
      have hg : c1.getField name >>= Field.castTo ty = .ok f := by
        simp only [Coll.getField, hf, Res.ok_bind, Field.castTo, e1, if_true]
      simp only [hg]
      refine ⟨by simp, ?_, ?_⟩
      · intro g c2 h
        simp only [Prod.mk.injEq, Res.ok.injEq] at h
        obtain ⟨rfl, rfl⟩ := h
        exact ⟨hf, e1, e2, e3, fun g hg => Option.some.inj (hf.symm.trans hg)⟩
      · intro g hg hne
        rw [hf] at hg; cases hg
        exact absurd e1 hne
    | throw e => exact ⟨by simp, by simp, fun g _ _ => ⟨e, rfl⟩⟩
    | ub => exact absurd rfl h3
  · rw [hx]
    have hg : ({ (c.getSub tag).2 with fields := c.fields.insert name f } : Coll α U).getField name >>=
        Field.castTo ty = .ok f := by
      simp only [Coll.getField, SMap.find_insert_self, Res.ok_bind, Field.castTo, hf.1, if_true]
    simp only [hg]
    refine ⟨by simp, ?_, fun g hg => (by rw [hn] at hg; cases hg)⟩
    intro g c2 h
    simp only [Prod.mk.injEq, Res.ok.injEq] at h
    obtain ⟨rfl, rfl⟩ := h
    exact ⟨SMap.find_insert_self _ _ _, hf.1, hf.2.2.2.2.1, hf.2.2.2.2.2.1,
      fun g hg => (by rw [hn] at hg; cases hg)⟩
  · rcases hr : c.register name ty comps tag unit allow with ⟨r, c1⟩
    rw [hr] at hx
    simp only at hx
    subst hx
    exact ⟨by simp, by simp, fun g hg => (by rw [hn] at hg; cases hg)⟩

example : (exAfter.registerRef "flag" .int (.num 1) "pixel" "" true).1 =
      (exAfter.pyGetTyped .int "flag") ∧
    ((exAfter.registerRef "flag" .int (.num 1) "pixel" "" true).1 >>= fun f => .ok f.ty) = .ok .int ∧
    (exAfter.registerRef "flag" .real (.num 1) "pixel" "" true).1 = .throw .runtimeError := by
  decide +kernel

/-- **C76** After a registration, whatever the program does short of popping the field, access by name succeeds
for the type it was registered with and throws for every other type. -/
theorem C76_program {srt : SortFn} {c c1 c' : Coll α U} (hw : c.WF) {name : String} {ty : ElemType}
    {comps : Comps} {tag : String} {unit : U} {allow : Bool} {f : Field α U}
    (hreg : c.registerRef name ty comps tag unit allow = (.ok f, c1)) {ops : List (Op α U)}
    (hp : Op.pop name ∉ ops) (hr : c1.run srt ops = some c') :
    ∃ f', f'.ty = ty ∧ f'.unit = unit ∧
      ∀ ty', c'.pyGetTyped ty' name = if ty' = ty then .ok f' else .throw .runtimeError := by
  obtain ⟨hf, h1, _, h2, _⟩ := (C76_register c name ty comps tag unit allow).2.1 f c1 hreg
  have hc1 : c1 = (c.register name ty comps tag unit allow).2 := by
    have := congrArg Prod.snd hreg
    simp only at this
    rw [← this]
    unfold Coll.registerRef
    rcases c.register name ty comps tag unit allow with ⟨r, c2⟩
    cases r <;> rfl
  obtain ⟨f', hf', h3, h4⟩ := C10_persists (srt := srt) (hc1 ▸ hw.register name ty comps tag unit allow) hf hp hr
  refine ⟨f', h3.trans h1, h4.trans h2, fun ty' => ?_⟩
  obtain ⟨g1, _, g3, _⟩ := C76_get c' ty' name
  split
  · rename_i he
    exact (g1 f').2 ⟨hf', he ▸ h3.trans h1⟩
  · rename_i he
    exact g3.2 ⟨f', hf', fun h => he ((h3.trans h1).symm.trans h).symm⟩

example : ∃ c1 : Coll Int String, (exColl.registerRef "strain" .real (.shape [2, 2]) "quad" "m" false).2 = c1 ∧
    ((exColl.registerRef "strain" .real (.shape [2, 2]) "quad" "m" false).1 >>= fun f => .ok f.ty) = .ok .real ∧
    (c1.run stableSort [.initGlobalOrder [3, 2] [] [] .automatic, .reshape "strain" [4], .setZero "strain"]).isSome := by
  refine ⟨_, rfl, by decide +kernel, by decide +kernel⟩

theorem mk'_states {global : Bool} {dim : Int} {order : StorageOrder} {sub : SMap String Int} {c0 : Coll α U}
    (h : mk' global dim order sub = .ok c0) : c0.states = [] := by
  unfold mk' at h
  rcases (Coll.empty global dim order sub : Coll α U).setNbSubPts_cases pixelTag 1 with ⟨hx, _⟩ | ⟨_, _, hx⟩
  · rw [hx] at h; simp at h
  · rw [hx] at h
    simp only [Res.ok.injEq] at h
    rw [← h]
    rfl

/-- Reachable collections: state fields and their fields are as described, unless one of the fields was
popped. -/
theorem state_ok {srt : SortFn} {c c' : Coll α U} (hw : c.WF) {pre : String}
    (h : ∀ s, c.states.find pre = some s → StateOk c pre s) {ops : List (Op α U)}
    (hp : ∀ j, Op.pop (subFieldName pre j) ∉ ops) (hr : c.run srt ops = some c') :
    c'.WF ∧ (∀ s, c'.states.find pre = some s → StateOk c' pre s) ∧
      (∀ s, c.states.find pre = some s → ∃ s', c'.states.find pre = some s' ∧ s'.ty = s.ty ∧
        s'.unit = s.unit ∧ s'.nbMemory = s.nbMemory) := by
  refine run_induct srt (fun d => d.WF ∧ (∀ s, d.states.find pre = some s → StateOk d pre s) ∧
    (∀ s, c.states.find pre = some s → ∃ s', d.states.find pre = some s' ∧ s'.ty = s.ty ∧
        s'.unit = s.unit ∧ s'.nbMemory = s.nbMemory)) ⟨hw, h, fun s hs => ⟨s, hs, rfl, rfl, rfl⟩⟩ ?_ hr
  rintro d op ⟨hd, h1, h2⟩ hop
  obtain ⟨k1, k2⟩ := stateOk_step srt hd h1 op (fun j he => hp j (he ▸ hop))
  refine ⟨hd.step srt op, k1, fun s hs => ?_⟩
  obtain ⟨s', a1, a2, a3, a4⟩ := h2 s hs
  obtain ⟨s'', b1, b2, b3, b4⟩ := k2 s' a1
  exact ⟨s'', b1, b2.trans a2, b3.trans a3, b4.trans a4⟩

/-- What the fields of a state field of type `ty`, unit `unit` and `m` remembered steps must be, seen through
the typed accessors: the current field, those of up to `m` steps ago, and all of them for a map. -/
structure SoundState (c : Coll α U) (pre : String) (ty : ElemType) (unit : U) (m : Int) : Prop where
  current : ∃ f, c.typedCurrent ty pre = .ok f ∧ f.ty = ty ∧ f.unit = unit
  old : ∀ k : Nat, (k : Int) ≤ m → ∃ f, c.typedOld ty pre k = .ok f ∧ f.ty = ty ∧ f.unit = unit
  beyond : ∀ k : Nat, m < (k : Int) → c.typedOld ty pre k = .throw .outOfRange
  slots : ∀ j : Nat, (j : Int) ≤ m → ∃ f, c.typedSlot ty pre j = .ok f ∧ f.ty = ty ∧ f.unit = unit

theorem StateOk.sound {c : Coll α U} {pre : String} {s : StateField U} (hs : c.states.find pre = some s)
    (h : StateOk c pre s) : SoundState c pre s.ty s.unit s.nbMemory := by
  have hp := h.pos
  have hidx : ∀ k : Nat, (k : Int) ≤ s.nbMemory → ∃ j, s.indices[k]? = some j ∧ j < s.nbMemory.toNat + 1 := by
    intro k hk
    have hlt : k < s.indices.length := by rw [h.len]; omega
    exact ⟨s.indices[k], List.getElem?_eq_getElem hlt, h.lt _ (List.getElem_mem hlt)⟩
  refine ⟨?_, ?_, ?_, ?_⟩
  · obtain ⟨j, h1, h2⟩ := hidx 0 (by omega)
    obtain ⟨e1, f, e2, e3, e4⟩ := h.slot h2
    refine ⟨f, ?_, e3, e4⟩
    simp only [typedCurrent, stateCurrent, currentName, hs, h1, e1, e2, Res.ok_bind, Field.castTo, e3, if_true]
  · intro k hk
    obtain ⟨j, h1, h2⟩ := hidx k hk
    obtain ⟨e1, f, e2, e3, e4⟩ := h.slot h2
    refine ⟨f, ?_, e3, e4⟩
    simp only [typedOld, stateOld, hs, h1, e1, e2, Res.ok_bind, Field.castTo, e3, if_true]
  · intro k hk
    have h1 : s.indices[k]? = none := by rw [List.getElem?_eq_none_iff, h.len]; omega
    simp only [typedOld, stateOld, hs, h1, Res.throw_bind]
  · intro j hj
    obtain ⟨e1, f, e2, e3, e4⟩ := h.slot (j := j) (by omega)
    refine ⟨f, ?_, e3, e4⟩
    simp only [typedSlot, getState, hs, e1, e2, Res.ok_bind, Field.castTo, e3, if_true]

/-- **C76** In every state a program reaches without popping a field of the state field, the unchecked casts of
the state field's accessors are sound: all its fields exist and have its element type (and unit). -/
theorem C76_state {srt : SortFn} {global : Bool} {dim : Int} {order : StorageOrder} {sub : SMap String Int}
    (hs : sub.Sorted) {c0 c : Coll α U} (hc : mk' global dim order sub = .ok c0) {ops : List (Op α U)}
    (hr : c0.run srt ops = some c) {pre : String} (hp : ∀ j, Op.pop (subFieldName pre j) ∉ ops)
    {s : StateField U} (hst : c.states.find pre = some s) :
    SoundState c pre s.ty s.unit s.nbMemory := by
  have h := state_ok (mk'_wf hs hc) (pre := pre) (by rw [mk'_states hc]; intro s hs; cases hs) hp hr
  exact StateOk.sound hst (h.2.1 s hst)

/-- **C76** The reference a registration of a state field returns is one to a state field of the requested type
and unit; its accessors stay sound, for that type, in every later state; and asking for the state field
with another type throws. -/
theorem C76_state_program {srt : SortFn} {global : Bool} {dim : Int} {order : StorageOrder}
    {sub : SMap String Int} (hs : sub.Sorted) {c0 d d1 c : Coll α U} (hc : mk' global dim order sub = .ok c0)
    {ops1 ops2 : List (Op α U)} (hr1 : c0.run srt ops1 = some d) {pre : String} {ty : ElemType} {m n : Int}
    {tag : String} {unit : U} {allow : Bool}
    (hreg : d.registerState pre ty m n tag unit allow = (.ok (), d1)) (hr2 : d1.run srt ops2 = some c)
    (hp : ∀ j, Op.pop (subFieldName pre j) ∉ ops1 ++ ops2) :
    (∃ s, d.registerStateRef pre ty m n tag unit allow = (.ok s, d1) ∧ s.ty = ty ∧ s.unit = unit) ∧
    SoundState c pre ty unit m ∧
    ∀ ty' m' n' tag' unit' allow', ty' ≠ ty →
      ∃ e, c.registerStateRef pre ty' m' n' tag' unit' allow' = (.throw e, c) := by
  have h := state_ok (mk'_wf hs hc) (pre := pre) (by rw [mk'_states hc]; intro s hs; cases hs)
    (fun j hj => hp j (by simp [hj])) hr1
  obtain ⟨r1, r2, r3, r4⟩ := registerState_states (d := d) pre ty m n tag unit allow
  rw [hreg] at r1 r2 r3 r4
  simp only at r1 r2 r3 r4
  obtain ⟨s, hs1⟩ := r4 trivial
  have hk : (∀ s, d1.states.find pre = some s → StateOk d1 pre s) ∧ s.ty = ty ∧ s.unit = unit ∧
      s.nbMemory = m := by
    cases h0 : d.states.find pre with
    | none => exact ⟨fun s' hs' => (r3 h0 s' hs').1, (r3 h0 s hs1).2⟩
    | some s0 =>
      obtain ⟨e1, e2⟩ := r2 s0 h0
      rw [hs1] at e1; cases e1
      have hd1 := stateOk_step srt h.1 h.2.1 (.registerState pre ty m n tag unit allow) (fun j => by simp)
      have e3 : (d.step srt (.registerState pre ty m n tag unit allow)).2 = d1 := by
        simp only [Coll.step, hreg]
      rw [e3] at hd1
      exact ⟨hd1.1, e2 trivial⟩
  have hw1 : d1.WF := by
    have := h.1.registerState pre ty m n tag unit allow
    rw [hreg] at this; exact this
  obtain ⟨_, k2, k3⟩ := state_ok hw1 hk.1 (fun j hj => hp j (by simp [hj])) hr2
  obtain ⟨s', a1, a2, a3, a4⟩ := k3 s hs1
  refine ⟨⟨s, ?_, hk.2.1, hk.2.2.1⟩, ?_, ?_⟩
  · unfold Coll.registerStateRef
    rw [hreg]
    simp only [Coll.getState, hs1, Res.ok_bind, StateField.castTo, hk.2.1, if_true]
  · have := StateOk.sound a1 (k2 s' a1)
    rw [a2, a3, a4, hk.2.1, hk.2.2.1, hk.2.2.2] at this
    exact this
  · intro ty' m' n' tag' unit' allow' hne
    have hty : s'.ty ≠ ty' := by rw [a2, hk.2.1]; exact Ne.symm hne
    unfold Coll.registerStateRef Coll.registerState
    rw [a1]
    cases allow' with
    | false => exact ⟨_, rfl⟩
    | true =>
      simp only [hty, ne_eq, not_false_eq_true, if_true]
      exact ⟨_, rfl⟩

/-- A program with state fields of two types, cycling, initialisation and a field popped that is not theirs. -/
def exTyped : List (Op Int String) :=
  [.registerState "T" .real 3 1 "quad" "K" false, .registerState "n" .uint 1 2 "pixel" "" false,
   .register "T" .int (.num 1) "pixel" "" false, .initGlobalOrder [3, 2] [] [] .automatic, .cycle "T", .pop "T",
   .cycle "n", .cycle "T", .write "T, sub_field index 2" 0 7]

example : (exColl.run stableSort exTyped).isSome ∧ (∀ j, Op.pop (subFieldName "T" j) ∉ exTyped) ∧
    ((exColl.run stableSort exTyped).bind (fun c => c.states.find "T")).isSome := by
  refine ⟨by decide +kernel, fun j => ?_, by decide +kernel⟩
  simp only [exTyped, List.mem_cons, reduceCtorEq, List.mem_nil_iff, or_false, false_or, Op.pop.injEq,
    subFieldName]
  intro h
  have h1 := congrArg String.length h
  rw [String.length_append, String.length_append] at h1
  have h2 : ", sub_field index ".length = 18 := by decide
  have h3 : "T".length = 1 := by decide
  omega

/-- Why no field of the state field may be popped: its references are not updated, and do not come back when
the name is registered again with another type. -/
theorem C76_popped : ∃ c : Coll Int String,
    exColl.run stableSort [.registerState "T" .real 1 1 "quad" "K" false, .pop "T, sub_field index 0",
      .register "T, sub_field index 0" .int (.num 1) "quad" "K" false] = some c ∧
    c.typedCurrent .real "T" = .ub ∧ (c.pyGetTyped .int "T, sub_field index 0" >>= fun f => .ok f.ty) = .ok .int := by
  refine ⟨_, rfl, by decide +kernel, by decide +kernel⟩

end Verif.Props
