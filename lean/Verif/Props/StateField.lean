import Verif.Lemmas.StateField
import Verif.Props.FieldOps
/-
Property C21: state fields remember history.

`h.ago k` (`Verif.Spec.History`) is the value that was present `k` steps ago.  A program consists of
member functions called on the current field, calls to `cycle()`, and member functions called on
fields that do not belong to the state field.
-/
set_option linter.unusedSectionVars false

namespace Verif.Props
open Verif Verif.Ccoord Verif.Layout Verif.Collection Verif.Collection.Coll Verif.Spec

variable {α U : Type} [Inhabited α] [DecidableEq U]

/-- State fields with memory `N` behave like a variable with memory: registered in any collection, and
used by any program, `old(k)` is for every `k ≤ N` the value `k` steps ago, and `current()` the
present value. -/
def Remembers (α U : Type) [Inhabited α] [DecidableEq U] (N : Nat) : Prop :=
  ∀ (c c1 c2 : Coll α U) (pre : String) (ty : ElemType) (nbComp : Int) (tag : String) (unit : U)
    (h : History (Field α U)) (ops : List (StOp α U)),
    c.registerState pre ty N nbComp tag unit false = (.ok (), c1) →
    (∀ k ≤ N, ∃ f, h.ago k = some f ∧ c1.stateOld pre k = .ok f) →
    (∀ op ∈ ops, op.foreign pre) →
    c1.stRun pre ops = some c2 →
    c2.stateCurrent pre = .ok (ops.foldl (track N) h).now ∧
    ∀ k ≤ N, ∃ f, (ops.foldl (track N) h).ago k = some f ∧ c2.stateOld pre k = .ok f

/-- C21 as documented: every memory size of at least one. -/
def C21_statement : Prop := ∀ N, 1 ≤ N → Remembers Int String N

/-- Two remembered values: the registered state field. -/
def exState (N : Nat) : Coll Int String := (exColl.registerState "s" .real N 1 "quad" "" false).2

theorem exState_ok (N : Nat) (h : 1 ≤ N) :
    exColl.registerState "s" .real N 1 "quad" "" false = (.ok (), exState N) := by
  have h1 : (exColl.registerState "s" .real N 1 "quad" "" false).1 = .ok () := by
    unfold registerState
    have hst : exColl.states.find "s" = none := by decide +kernel
    have hg : (exColl.getSub "quad").2 = exColl := by decide +kernel
    rw [hst, hg]
    simp only
    rw [if_neg (by omega)]
    suffices hh : ∀ n i (c : Coll Int String), c.initialised = false →
        (∀ j, i ≤ j → c.fields.find (subFieldName "s" j) = none) →
        (c.registerSubFields "s" .real 1 "quad" "" i n).1 = .ok () by
      have := hh ((N : Int).toNat + 1) 0 exColl rfl (fun j _ => rfl)
      rcases hr : exColl.registerSubFields "s" .real 1 "quad" "" 0 ((N : Int).toNat + 1) with ⟨r, c2⟩
      rw [hr] at this
      simp only at this
      subst this
      rfl
    intro n
    induction n with
    | zero => intro i c _ _; rfl
    | succ n ih =>
      intro i c hi hf
      unfold registerSubFields
      rcases c.register_cases (subFieldName "s" i) .real (.num 1) "quad" "" false with
        ⟨f, hx, _⟩ | ⟨_, f, _, hx, _⟩ | ⟨_, hx, _⟩
      · rw [hf i (le_refl i)] at hx; cases hx
      · rw [hx]
        refine ih (i + 1) _ ?_ ?_
        · have := (c.getSub_frame "quad").1
          simp only [base, Prod.mk.injEq] at this
          exact this.2.2.2.2.2.2.1.trans hi
        · intro j hj
          simp only [SMap.find_insert]
          rw [if_neg (fun he => by have := subFieldName_inj he; omega)]
          exact hf j (by omega)
      · rw [hi] at hx; cases hx
  exact Prod.ext h1 rfl

/-- **Violation of C21.**  If `N + 1` is not a power of two, the current field and one of the
remembered fields of a freshly registered state field are the same field: whatever is written to
`current()` changes `old(k)`. -/
theorem C21_alias {N : Nat} (hN : ¬ ∃ j, N + 1 = 2 ^ j) {c c1 : Coll α U} {pre : String} {ty : ElemType}
    {nbComp : Int} {tag : String} {unit : U}
    (hreg : c.registerState pre ty N nbComp tag unit false = (.ok (), c1)) :
    ∃ k, 1 ≤ k ∧ k ≤ N ∧ ∃ f, c1.stateCurrent pre = .ok f ∧ c1.stateOld pre k = .ok f ∧
      ∀ op : Field α U → Res Unit × Field α U,
        (c1.stStep pre (.onCurrent op)).2.stateOld pre k = .ok (op f).2 := by
  obtain ⟨k, hk1, hk2, hk⟩ := initialIndices_alias hN
  obtain ⟨_, s, hs, hm, hn, hx, hf, _⟩ := registerState_new hreg
  have hlen : (initialIndices N).length = N + 1 := by simp [initialIndices]
  obtain ⟨j, hj⟩ : ∃ j, (initialIndices N)[0]? = some j :=
    ⟨_, List.getElem?_eq_getElem (by omega)⟩
  have hjlt : j < N + 1 := initialIndices_lt j (List.mem_of_getElem? hj)
  have hnm : s.names[j]? = some (subFieldName pre j) := by
    rw [hn, List.getElem?_map, List.getElem?_range hjlt]; rfl
  obtain ⟨f, hff⟩ := hf (subFieldName pre j) (List.mem_of_getElem? hnm)
  have hcur : c1.currentName pre = .ok (subFieldName pre j) := by
    unfold currentName StateField.slotName
    simp only [hs, hx, hj, hnm]
  refine ⟨k, hk1, hk2, f, ?_, ?_, ?_⟩
  · unfold stateCurrent; simp only [hcur, hff]
  · unfold stateOld StateField.slotName
    simp only [hs, hx, hk.trans hj, hnm, hff]
  · intro op
    simp only [stStep, hcur, onField, hff]
    unfold stateOld StateField.slotName
    simp only [hs, hx, hk.trans hj, hnm, SMap.find_insert_self]

/-- C21 for the memory sizes 1, 3, 7, 15, …: the complete statement, for all collections, programs and
numbers of cycles. -/
theorem C21_history_partial {N : Nat} (hN : ∃ j, N + 1 = 2 ^ j) : Remembers α U N := by
  intro c c1 c2 pre ty nbComp tag unit h ops hreg h0 hops hrun
  obtain ⟨j, hj⟩ := hN
  obtain ⟨_, s, hs, hm, hn, hx, hf, _⟩ := registerState_new hreg
  rw [initialIndices_pow2 hj] at hx
  have hinv : StInv c1 pre N 0 h := by
    refine ⟨Nat.zero_le N, ⟨s, hs, hm, hn, hx⟩, ?_⟩
    intro k hk
    obtain ⟨f, ha, ho⟩ := h0 k hk
    refine ⟨f, ?_, ha⟩
    have hlt := slotOf_lt (Nat.zero_le N) hk
    have e1 : s.indices[k]? = some (slotOf N 0 k) := by
      rw [hx, List.getElem?_map, List.getElem?_range (by omega)]; rfl
    have e2 : s.names[slotOf N 0 k]? = some (subFieldName pre (slotOf N 0 k)) := by
      rw [hn, List.getElem?_map, List.getElem?_range (by omega)]; rfl
    unfold stateOld StateField.slotName at ho
    simp only [hs, e1, e2] at ho
    cases hff : c1.fields.find (subFieldName pre (slotOf N 0 k)) with
    | none => rw [hff] at ho; simp at ho
    | some g => rw [hff] at ho; simp only [Res.ok.injEq] at ho; rw [ho]
  obtain ⟨b, hb⟩ := hinv.run ops hops hrun
  exact ⟨hb.current, fun k hk => hb.old hk⟩

/-- The memory sizes for which C21 holds are exactly those one less than a power of two. -/
theorem C21_exact (N : Nat) (h1 : 1 ≤ N) : Remembers Int String N ↔ ∃ j, N + 1 = 2 ^ j := by
  refine ⟨fun hr => ?_, C21_history_partial⟩
  by_contra hN
  have hreg := exState_ok N h1
  obtain ⟨k, hk1, hk2, f, hcur, hold, hall⟩ := C21_alias hN hreg
  have hview : ∀ k, k ≤ N → ∃ g, (exState N).stateOld "s" k = .ok g := by
    intro k hk
    obtain ⟨_, s, hs, hm, hn, hx, hf, _⟩ := registerState_new hreg
    have hlen : (initialIndices N).length = N + 1 := by simp [initialIndices]
    obtain ⟨j, hj⟩ : ∃ j, (initialIndices N)[k]? = some j := ⟨_, List.getElem?_eq_getElem (by omega)⟩
    have hjlt : j < N + 1 := initialIndices_lt j (List.mem_of_getElem? hj)
    have hnm : s.names[j]? = some (subFieldName "s" j) := by
      rw [hn, List.getElem?_map, List.getElem?_range hjlt]; rfl
    obtain ⟨g, hg⟩ := hf (subFieldName "s" j) (List.mem_of_getElem? hnm)
    refine ⟨g, ?_⟩
    unfold stateOld StateField.slotName
    simp only [hs, hx, hj, hnm, hg]
  let get : Nat → Field Int String := fun k =>
    match (exState N).stateOld "s" k with | .ok g => g | _ => f
  have hget : ∀ k ≤ N, (exState N).stateOld "s" k = .ok (get k) := by
    intro k hk
    obtain ⟨g, hg⟩ := hview k hk
    simp only [get, hg]
  let h : History (Field Int String) :=
    { now := get 0, past := (List.range N).map (fun i => get (i + 1)) }
  have hago : ∀ k ≤ N, h.ago k = some (get k) := by
    intro k hk
    cases k with
    | zero => rfl
    | succ k =>
      simp only [h, History.ago, List.getElem?_cons_succ]
      rw [List.getElem?_map, List.getElem?_range (by omega)]; rfl
  let op : Field Int String → Res Unit × Field Int String := fun f => (.ok (), { f with pad := f.pad + 1 })
  have hrun : (exState N).stRun "s" [.onCurrent op] =
      some ((exState N).stStep "s" (.onCurrent op)).2 := by
    unfold stRun stRun
    have hcn : ∃ n, (exState N).currentName "s" = .ok n := by
      unfold stateCurrent at hcur
      cases hh : (exState N).currentName "s" with
      | ok n => exact ⟨n, rfl⟩
      | throw e => rw [hh] at hcur; simp at hcur
      | ub => rw [hh] at hcur; simp at hcur
    obtain ⟨n, hcn⟩ := hcn
    simp only [stStep, hcn]
    unfold onField
    cases hh : (exState N).fields.find n with
    | none => rfl
    | some g => rfl
  obtain ⟨_, hmem⟩ := hr exColl (exState N) _ "s" .real 1 "quad" "" h [.onCurrent op] hreg
    (fun k hk => ⟨get k, hago k hk, hget k hk⟩) (by simp [StOp.foreign]) hrun
  obtain ⟨g, hg1, hg2⟩ := hmem k hk2
  rw [hall op] at hg2
  have hgk : (List.foldl (track N) h [.onCurrent op]).ago k = h.ago k := by
    obtain ⟨k', rfl⟩ : ∃ k', k = k' + 1 := ⟨k - 1, by omega⟩
    simp [track, History.modify, History.ago]
  rw [hgk, hago k hk2] at hg1
  have e1 : get k = f := by
    have := hget k hk2
    rw [hold] at this
    exact (Res.ok.inj this).symm
  rw [← Option.some.inj hg1, e1] at hg2
  have := congrArg Field.pad (Res.ok.inj hg2)
  simp [op] at this

/-- C21 as documented does not hold: a memory of two steps aliases the current value. -/
theorem C21_false : ¬ C21_statement := by
  intro h
  obtain ⟨j, hj⟩ := (C21_exact 2 (by omega)).1 (h 2 (by omega))
  match j with
  | 0 => simp at hj
  | 1 => simp at hj
  | j + 2 => rw [pow_add] at hj; omega

/-- Steps beyond the memory are rejected by `old`, at all times. -/
theorem C21_out_of_range {c : Coll α U} {pre : String} {s : StateField U}
    (hs : c.states.find pre = some s) {k : Nat} (hk : s.indices.length ≤ k) :
    c.stateOld pre k = .throw .outOfRange := by
  unfold stateOld
  rw [hs]
  simp only
  rw [List.getElem?_eq_none hk]

/-- A memory of 3 = 2^2 - 1 steps. -/
example : Remembers Int String 3 := C21_history_partial ⟨2, rfl⟩
example : exColl.registerState "s" .real 3 1 "quad" "" false = (.ok (), exState 3) := exState_ok 3 (by omega)
example : ¬ ∃ j, 5 + 1 = 2 ^ j := by
  rintro ⟨j, hj⟩
  match j with
  | 0 | 1 | 2 => simp at hj
  | j + 3 => rw [pow_add] at hj; omega
/-- With a memory of two, the first write to the current value is seen in `old(1)`. -/
example : ((exState 2).states.find "s").map (·.indices) = some [2, 2, 0] := by decide +kernel
example : ((exState 3).states.find "s").map (·.indices) = some [0, 3, 2, 1] := by decide +kernel

/-- A memory of two steps: one of the remembered fields is the current one. -/
example : ∃ k : Nat, 1 ≤ k ∧ k ≤ 2 ∧ ∃ f, (exState 2).stateCurrent "s" = .ok f ∧ (exState 2).stateOld "s" k = .ok f := by
  obtain ⟨k, h1, h2, f, h3, h4, -⟩ := C21_alias (N := 2) (by
    rintro ⟨j, hj⟩
    match j with
    | 0 | 1 => simp at hj
    | j + 2 => rw [Nat.pow_add] at hj; omega) (exState_ok 2 (by omega))
  exact ⟨k, h1, h2, f, h3, h4⟩
example : Remembers Int String 7 := (C21_exact 7 (by decide)).2 ⟨3, rfl⟩

end Verif.Props
