import Verif.Model.TypedAccess
import Verif.Lemmas.StateField
import Verif.Props.Collection
/-! Lemmas on the types of state fields and of their sub-fields. -/
set_option linter.unusedSectionVars false

namespace Verif.Collection
open Verif Verif.Ccoord Verif.Layout Verif.Collection.Coll

variable {α U : Type} [Inhabited α] [DecidableEq U]

theorem forget_of_notMem {s : StateField U} {name : String} (h : name ∉ s.names) : s.forget name = s := by
  unfold StateField.forget
  rw [if_neg h]

/-- Only registrations of state fields, cycling and popping touch the state fields. -/
theorem step_states (srt : SortFn) {d : Coll α U} (hd : d.WF) (op : Op α U)
    (h1 : ∀ pre ty m n tag unit allow, op ≠ .registerState pre ty m n tag unit allow)
    (h2 : ∀ pre, op ≠ .cycle pre) (h3 : ∀ name, op ≠ .pop name) :
    (d.step srt op).2.states = d.states := by
  cases op with
  | register _ _ _ _ _ _ => exact (register_frame _ _ _ _ _ _ _).2.1
  | registerState _ _ _ _ _ _ _ => exact absurd rfl (h1 _ _ _ _ _ _ _)
  | pop name => exact absurd rfl (h3 _)
  | detached n ty shape tag unit =>
    have : ((d.step srt (.detached n ty shape tag unit)).2 = d ∨
        (d.step srt (.detached n ty shape tag unit)).2 = (d.getSub tag).2) := by
      rcases detached_cases hd.fields_sorted n ty shape tag unit with ⟨_, _, _, _, _, _, _, h⟩ | ⟨_, h⟩
      · right; exact h
      · exact h
    rcases this with h | h <;> rw [h]
    exact (d.getSub_frame tag).2.2
  | setNbSubPts tag n =>
    simp only [Coll.step]
    rcases d.setNbSubPts_cases tag n with ⟨h, _⟩ | ⟨_, _, h⟩ <;> rw [h]
  | getSub tag => exact (d.getSub_frame tag).2.2
  | initGlobal dom sub loc strides =>
    simp only [Coll.step]
    split
    · cases hi : d.initialised with
      | true => rw [(initGlobal_init hi).2]
      | false => exact (initGlobal_effect srt d dom sub loc strides hi).states
    · rfl
  | initGlobalOrder dom sub loc order =>
    simp only [Coll.step]
    split
    · cases hi : d.initialised with
      | true => rw [(initGlobalOrder_init hi).1]
      | false => exact (initGlobalOrder_effect srt d dom sub loc order hi).states
    · rfl
  | addPixel id =>
    simp only [Coll.step, addPixel]
    split
    · rfl
    · split <;> rfl
  | initLocal =>
    simp only [Coll.step]
    split
    · rfl
    · cases hi : d.initialised with
      | true => rw [initLocal_init hi]
      | false => exact (initLocal_effect d hi).states
  | reshape _ _ => exact (onField_frame _ _ _).2.1
  | reshapeTag n shape tag =>
    simp only [Coll.step]
    rcases d.reshapeTag_cases n shape tag with ⟨_, h⟩ | ⟨_, _, _, h⟩ | ⟨_, _, _, h⟩ <;> rw [h] <;>
      exact (d.getSub_frame tag).2.2
  | pushBack _ _ _ => exact (onField_frame _ _ _).2.1
  | setPadSize _ _ => exact (onField_frame _ _ _).2.1
  | setZero _ => exact (onField_frame _ _ _).2.1
  | write _ _ _ => exact (onField_frame _ _ _).2.1
  | cycle pre => exact absurd rfl (h2 _)
  | clone src dst ow => exact (clone_frame srt d src dst ow).2.1

/-- The state field registered under `pre` refers to as many fields as it remembers steps, all registered and
of its own type and unit. -/
structure StateOk (d : Coll α U) (pre : String) (s : StateField U) : Prop where
  pos : 1 ≤ s.nbMemory
  names : s.names = (List.range (s.nbMemory.toNat + 1)).map (subFieldName pre)
  len : s.indices.length = s.nbMemory.toNat + 1
  lt : ∀ v ∈ s.indices, v < s.nbMemory.toNat + 1
  sub : ∀ n ∈ s.names, ∃ f, d.fields.find n = some f ∧ f.ty = s.ty ∧ f.unit = s.unit

theorem StateOk.slot {d : Coll α U} {pre : String} {s : StateField U} (h : StateOk d pre s) {j : Nat}
    (hj : j < s.nbMemory.toNat + 1) :
    s.slotName j = .ok (subFieldName pre j) ∧
      ∃ f, d.fields.find (subFieldName pre j) = some f ∧ f.ty = s.ty ∧ f.unit = s.unit := by
  have hn : s.names[j]? = some (subFieldName pre j) := by
    rw [h.names]; simp [hj]
  refine ⟨by unfold StateField.slotName; rw [hn], ?_⟩
  exact h.sub _ (List.mem_of_getElem? hn)

/-- A registration of a state field leaves the other state fields; for its own prefix it leaves the state field
there was, or makes one as described. -/
theorem registerState_states {d : Coll α U} (pre : String) (ty : ElemType) (m n : Int) (tag : String) (unit : U)
    (allow : Bool) :
    (∀ q, q ≠ pre → (d.registerState pre ty m n tag unit allow).2.states.find q = d.states.find q) ∧
    (∀ s, d.states.find pre = some s →
      (d.registerState pre ty m n tag unit allow).2.states.find pre = some s ∧
      ((d.registerState pre ty m n tag unit allow).1 = .ok () → s.ty = ty ∧ s.unit = unit ∧ s.nbMemory = m)) ∧
    (d.states.find pre = none → ∀ s,
      (d.registerState pre ty m n tag unit allow).2.states.find pre = some s →
      StateOk (d.registerState pre ty m n tag unit allow).2 pre s ∧ s.ty = ty ∧ s.unit = unit ∧
        s.nbMemory = m) ∧
    ((d.registerState pre ty m n tag unit allow).1 = .ok () →
      ∃ s, (d.registerState pre ty m n tag unit allow).2.states.find pre = some s) := by
  unfold registerState
  cases hp : d.states.find pre with
  | some s =>
    refine ⟨fun q _ => ?_, ?_, fun h => (by simp at h), fun _ => ⟨s, ?_⟩⟩
    · simp only; split
      · repeat' split
        all_goals rfl
      · rfl
    · intro s' hs'
      cases hs'
      simp only
      split
      · repeat' split
        all_goals simp_all
      · simp_all
    · simp only; split
      · repeat' split
        all_goals exact hp
      · exact hp
  | none =>
    have hg := (d.getSub_frame tag).2.2
    simp only
    split
    · refine ⟨fun q _ => by rw [hg], fun _ h => (by simp at h), fun _ s h => ?_, fun h => (by simp at h)⟩
      rw [hg, hp] at h; cases h
    · rename_i hm
      have hst : ((d.getSub tag).2.registerSubFields pre ty n tag unit 0 (m.toNat + 1)).2.states = d.states :=
        registerSubFields_induct (fun c => c.states = d.states) pre ty n tag unit
          (fun c name h => ((register_frame _ _ _ _ _ _ _).2.1).trans h) (m.toNat + 1) _ 0 hg
      rcases hr : (d.getSub tag).2.registerSubFields pre ty n tag unit 0 (m.toNat + 1) with ⟨r, c2⟩
      rw [hr] at hst
      simp only at hst
      cases r with
      | ok u =>
        obtain ⟨_, _, h3⟩ := registerSubFields_fields _ hr
        refine ⟨fun q hq => ?_, fun _ h => (by simp at h), fun _ s hs => ?_,
          fun _ => ⟨_, SMap.find_insert_self _ _ _⟩⟩
        · simp only [SMap.find_insert_ne _ _ hq, hst]
        · simp only [SMap.find_insert_self, Option.some.injEq] at hs
          subst hs
          refine ⟨⟨by simp only; omega, rfl, by simp [initialIndices], initialIndices_lt, ?_⟩, rfl, rfl, rfl⟩
          intro k hk
          simp only [List.mem_map, List.mem_range] at hk
          obtain ⟨j, hj, rfl⟩ := hk
          exact h3 j (by omega) (by omega)
      | throw e =>
        refine ⟨fun q _ => by simp only [hst], fun _ h => (by simp at h), fun _ s h => ?_,
          fun h => (by simp at h)⟩
        simp only [hst, hp] at h; cases h
      | ub =>
        refine ⟨fun q _ => by simp only [hst], fun _ h => (by simp at h), fun _ s h => ?_,
          fun h => (by simp at h)⟩
        simp only [hst, hp] at h; cases h

/-- One call keeps the description of a state field, unless it pops one of its fields. -/
theorem stateOk_step (srt : SortFn) {d : Coll α U} (hd : d.WF) {pre : String}
    (h : ∀ s, d.states.find pre = some s → StateOk d pre s) (op : Op α U)
    (hp : ∀ j, op ≠ .pop (subFieldName pre j)) :
    (∀ s, (d.step srt op).2.states.find pre = some s → StateOk (d.step srt op).2 pre s) ∧
    (∀ s, d.states.find pre = some s → ∃ s', (d.step srt op).2.states.find pre = some s' ∧ s'.ty = s.ty ∧
      s'.unit = s.unit ∧ s'.nbMemory = s.nbMemory) := by
  have hsub : ∀ s : StateField U, StateOk d pre s → ∀ n ∈ s.names,
      ∃ f, (d.step srt op).2.fields.find n = some f ∧ f.ty = s.ty ∧ f.unit = s.unit := by
    intro s hs n hn
    obtain ⟨g, hg, g1, g2⟩ := hs.sub n hn
    have hne : op ≠ .pop n := by
      rw [hs.names, List.mem_map] at hn
      obtain ⟨j, _, rfl⟩ := hn
      exact hp j
    obtain ⟨f', h1, h2, h3⟩ := Props.step_keeps srt hd hg rfl rfl op hne
    exact ⟨f', h1, h2.trans g1, h3.trans g2⟩
  have hsame : (d.step srt op).2.states.find pre = d.states.find pre →
      (∀ s, (d.step srt op).2.states.find pre = some s → StateOk (d.step srt op).2 pre s) ∧
      (∀ s, d.states.find pre = some s → ∃ s', (d.step srt op).2.states.find pre = some s' ∧ s'.ty = s.ty ∧
        s'.unit = s.unit ∧ s'.nbMemory = s.nbMemory) := by
    intro he
    rw [he]
    refine ⟨fun s hs => ?_, fun s hs => ⟨s, hs, rfl, rfl, rfl⟩⟩
    have hk := h s hs
    exact ⟨hk.pos, hk.names, hk.len, hk.lt, hsub s hk⟩
  by_cases h1 : ∃ q ty m n tag unit allow, op = .registerState q ty m n tag unit allow
  · obtain ⟨q, ty, m, n, tag, unit, allow, rfl⟩ := h1
    obtain ⟨r1, r2, r3, _⟩ := registerState_states (d := d) q ty m n tag unit allow
    by_cases hq : pre = q
    · subst hq
      cases hs0 : d.states.find pre with
      | some s => exact hs0 ▸ hsame ((r2 s hs0).1.trans hs0.symm)
      | none => exact ⟨fun s hs => (r3 hs0 s hs).1, fun s hs => by cases hs⟩
    · exact hsame (r1 pre hq)
  by_cases h2 : ∃ q, op = .cycle q
  · obtain ⟨q, rfl⟩ := h2
    by_cases hq : pre = q
    · subst hq
      cases hs0 : d.states.find pre with
      | none =>
        have : (d.step srt (.cycle pre)).2 = d := by simp only [Coll.step, cycle, hs0]
        exact hs0 ▸ hsame (by rw [this])
      | some s =>
        have hk := h s hs0
        have hst : (d.step srt (.cycle pre)).2.states.find pre = some
            { s with indices := s.indices.map (fun v => (v + 1) % (s.nbMemory.toNat + 1)) } := by
          simp only [Coll.step, cycle, hs0, SMap.find_insert_self]
        refine ⟨fun s' hs' => ?_, fun s' hs' => ?_⟩
        · rw [hst] at hs'; cases hs'
          refine ⟨hk.pos, hk.names, by simp [hk.len], ?_, hsub s hk⟩
          intro v hv
          simp only [List.mem_map] at hv
          obtain ⟨w, _, rfl⟩ := hv
          exact Nat.mod_lt _ (by omega)
        · cases hs'
          exact ⟨_, hst, rfl, rfl, rfl⟩
    · apply hsame
      simp only [Coll.step, cycle]
      split
      · rfl
      · exact SMap.find_insert_ne _ _ hq
  by_cases h3 : ∃ n, op = .pop n
  · obtain ⟨n, rfl⟩ := h3
    apply hsame
    simp only [Coll.step]
    rcases d.pop_cases n with ⟨_, hx⟩ | ⟨f, _, hx⟩ <;> rw [hx]
    simp only [SMap.find_map (f := StateField.forget n)]
    cases hs0 : d.states.find pre with
    | none => rfl
    | some s =>
      rw [Option.map_some, forget_of_notMem]
      intro hn
      rw [(h s hs0).names, List.mem_map] at hn
      obtain ⟨j, _, rfl⟩ := hn
      exact hp j rfl
  · exact hsame (by
      rw [step_states srt hd op (fun _ _ _ _ _ _ _ he => h1 ⟨_, _, _, _, _, _, _, he⟩)
        (fun _ he => h2 ⟨_, he⟩) (fun _ he => h3 ⟨_, he⟩)])

end Verif.Collection
