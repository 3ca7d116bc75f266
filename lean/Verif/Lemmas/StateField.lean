import Mathlib.Data.List.Nodup
import Verif.Model.StateField
import Verif.Spec.History
import Verif.Lemmas.Collection
/-! Lemmas on state fields. -/
set_option linter.unusedSectionVars false

namespace Verif.Collection
open Verif Verif.Ccoord Verif.Layout Verif.Spec

variable {α U : Type}

/-- `n + 1` and `n` have no common bit exactly if `n + 1` is a power of two. -/
theorem and_succ_eq_zero_iff (n : Nat) : (n + 1) &&& n = 0 ↔ ∃ k, n + 1 = 2 ^ k := by
  constructor
  · induction n using Nat.strongRecOn with
    | ind n ih =>
      intro h
      have h2 : (n + 1) / 2 &&& n / 2 = 0 := by rw [← Nat.and_div_two, h]
      rcases Nat.even_or_odd' n with ⟨a, rfl | rfl⟩
      · have e1 : (2 * a + 1) / 2 = a := by omega
        have e2 : 2 * a / 2 = a := by omega
        rw [e1, e2, Nat.and_self] at h2
        exact ⟨0, by simp [h2]⟩
      · have e1 : (2 * a + 1 + 1) / 2 = a + 1 := by omega
        have e2 : (2 * a + 1) / 2 = a := by omega
        rw [e1, e2] at h2
        obtain ⟨k, hk⟩ := ih a (by omega) h2
        exact ⟨k + 1, by rw [pow_succ]; omega⟩
  · rintro ⟨k, hk⟩
    have h := Nat.and_two_pow_sub_one_eq_mod (2 ^ k) k
    rw [show n = 2 ^ k - 1 by omega, show 2 ^ k - 1 + 1 = 2 ^ k by omega, h, Nat.mod_self]

/-- Slot of the value `k` steps old when the current one is in slot `b` of `N + 1`. -/
def slotOf (N b k : Nat) : Nat := if k ≤ b then b - k else b + N + 1 - k

theorem slotOf_lt {N b k : Nat} (hb : b ≤ N) (hk : k ≤ N) : slotOf N b k < N + 1 := by
  unfold slotOf; split <;> omega

theorem slotOf_inj {N b k k' : Nat} (hk : k ≤ N) (hk' : k' ≤ N)
    (h : slotOf N b k = slotOf N b k') : k = k' := by
  unfold slotOf at h; split at h <;> split at h <;> omega

/-- The slot after the current one, cyclically. -/
def nextSlot (N b : Nat) : Nat := if b = N then 0 else b + 1

theorem nextSlot_le {N b : Nat} (hb : b ≤ N) : nextSlot N b ≤ N := by
  unfold nextSlot; split <;> omega

theorem cycle_slot {N b k : Nat} (hb : b ≤ N) (hk : k ≤ N) :
    (slotOf N b k + 1) % (N + 1) = slotOf N (nextSlot N b) k := by
  have hlt := slotOf_lt hb hk
  by_cases h : slotOf N b k = N
  · rw [h, Nat.mod_self]
    unfold slotOf at h ⊢; unfold nextSlot
    split at h <;> split <;> split <;> omega
  · rw [Nat.mod_eq_of_lt (by omega)]
    unfold slotOf at h ⊢; unfold nextSlot
    split at h <;> split <;> split <;> split <;> omega

theorem slotOf_next_succ {N b k : Nat} (hk : k + 1 ≤ N) :
    slotOf N (nextSlot N b) (k + 1) = slotOf N b k := by
  unfold slotOf nextSlot
  split <;> split <;> split <;> omega

theorem slotOf_next_zero {N b : Nat} (hb : b ≤ N) : slotOf N (nextSlot N b) 0 = slotOf N b N := by
  unfold slotOf nextSlot
  split <;> split <;> split <;> omega

/-- The initial indices are right if `N + 1` is a power of two. -/
theorem initialIndices_pow2 {N j : Nat} (h : N + 1 = 2 ^ j) :
    Coll.initialIndices N = (List.range (N + 1)).map (slotOf N 0) := by
  unfold Coll.initialIndices
  apply List.map_congr_left
  intro k hk
  have hk' : k ≤ N := by simpa [Nat.lt_succ_iff] using hk
  have := Nat.and_two_pow_sub_one_eq_mod (N + 1 - k) j
  rw [← h] at this
  simp only [Nat.add_sub_cancel] at this
  rw [this]
  unfold slotOf
  by_cases h0 : k = 0
  · simp [h0]
  · rw [Nat.mod_eq_of_lt (by omega), if_neg (by omega)]; omega

/-- Otherwise the current value and some remembered one share a slot. -/
theorem initialIndices_alias {N : Nat} (h : ¬ ∃ j, N + 1 = 2 ^ j) :
    ∃ k, 1 ≤ k ∧ k ≤ N ∧ (Coll.initialIndices N)[k]? = (Coll.initialIndices N)[0]? := by
  rw [← and_succ_eq_zero_iff] at h
  have hle : (N + 1) &&& N ≤ N := Nat.and_le_right
  refine ⟨N + 1 - ((N + 1) &&& N), by omega, by omega, ?_⟩
  unfold Coll.initialIndices
  rw [List.getElem?_map, List.getElem?_map, List.getElem?_range (by omega),
    List.getElem?_range (by omega)]
  simp only [Option.map_some, Option.some.injEq, Nat.sub_zero]
  rw [show N + 1 - (N + 1 - ((N + 1) &&& N)) = (N + 1) &&& N by omega, Nat.and_assoc, Nat.and_self]

theorem initialIndices_lt {N : Nat} : ∀ v ∈ Coll.initialIndices N, v < N + 1 := by
  intro v hv
  simp only [Coll.initialIndices, List.mem_map, List.mem_range] at hv
  obtain ⟨k, _, rfl⟩ := hv
  exact Nat.lt_succ_of_le Nat.and_le_right

theorem subFieldName_inj {pre : String} {i j : Nat}
    (h : Coll.subFieldName pre i = Coll.subFieldName pre j) : i = j := by
  unfold Coll.subFieldName at h
  exact Nat.repr_injective (String.append_right_inj _ |>.1 h)

namespace Coll
variable [Inhabited α] [DecidableEq U]

theorem registerSubFields_fields {pre : String} {ty : ElemType} {nbComp : Int} {tag : String} {unit : U}
    (n : Nat) : ∀ {c c' : Coll α U} {i : Nat},
      c.registerSubFields pre ty nbComp tag unit i n = (.ok (), c') →
      c'.states = c.states ∧ (∀ m f, c.fields.find m = some f → c'.fields.find m = some f) ∧
      ∀ j, i ≤ j → j < i + n → ∃ f, c'.fields.find (subFieldName pre j) = some f ∧ f.ty = ty ∧
        f.unit = unit := by
  induction n with
  | zero =>
    intro c c' i h
    simp only [registerSubFields, Prod.mk.injEq, true_and] at h
    subst h
    exact ⟨rfl, fun _ _ h => h, fun j h1 h2 => by omega⟩
  | succ n ih =>
    intro c c' i h
    unfold registerSubFields at h
    rcases hr : c.register (subFieldName pre i) ty (.num nbComp) tag unit false with ⟨r, c1⟩
    rw [hr] at h
    have hk := fun m f (hf : c.fields.find m = some f) =>
      c.register_keeps (subFieldName pre i) ty (.num nbComp) tag unit false hf
    have hfr := c.register_frame (subFieldName pre i) ty (.num nbComp) tag unit false
    rw [hr] at hk hfr
    cases r with
    | ok u =>
      obtain ⟨h1, h2, h3⟩ := ih h
      refine ⟨h1.trans hfr.2.1, fun m f hf => h2 m f (hk m f hf), ?_⟩
      intro j hj hj'
      by_cases hji : j = i
      · subst hji
        rcases c.register_cases (subFieldName pre j) ty (.num nbComp) tag unit false with
          ⟨f, _, _, _, hx⟩ | ⟨_, f, hft, hx, _⟩ | ⟨_, _, ⟨e, hx⟩, _⟩
        · rw [hr] at hx; simp at hx
        · rw [hr] at hx
          refine ⟨f, h2 _ _ ?_, hft.1, hft.2.2.2.2.2.1⟩
          have hx2 : c1 = _ := congrArg Prod.snd hx
          rw [hx2]
          exact SMap.find_insert_self _ _ _
        · rw [hr] at hx; simp at hx
      · exact h3 j (by omega) (by omega)
    | throw e => simp at h
    | ub => simp at h

/-- What a successful registration of a new state field leaves behind. -/
theorem registerState_new {c c1 : Coll α U} {pre : String} {ty : ElemType} {N : Nat} {nbComp : Int}
    {tag : String} {unit : U}
    (h : c.registerState pre ty N nbComp tag unit false = (.ok (), c1)) :
    1 ≤ N ∧ ∃ s, c1.states.find pre = some s ∧ s.nbMemory = N ∧
      s.names = (List.range (N + 1)).map (subFieldName pre) ∧ s.indices = initialIndices N ∧
      (∀ n ∈ s.names, ∃ f, c1.fields.find n = some f) ∧
      (∀ m f, c.fields.find m = some f → c1.fields.find m = some f) := by
  have hfr := (c.registerState_frame pre ty N nbComp tag unit false).2.2
  rw [h] at hfr
  unfold registerState at h
  cases hp : c.states.find pre with
  | some s => rw [hp] at h; simp at h
  | none =>
    rw [hp] at h
    simp only at h
    split at h
    · simp at h
    · rename_i hN
      rcases hr : (c.getSub tag).2.registerSubFields pre ty nbComp tag unit 0 ((N : Int).toNat + 1)
        with ⟨r, c2⟩
      rw [hr] at h
      cases r with
      | ok u =>
        simp only [Prod.mk.injEq, true_and] at h
        obtain ⟨_, _, h3⟩ := registerSubFields_fields _ hr
        refine ⟨by omega, ⟨ty, N, nbComp, tag, unit,
          (List.range ((N : Int).toNat + 1)).map (subFieldName pre), initialIndices (N : Int).toNat⟩,
          by rw [← h]; exact SMap.find_insert_self _ _ _, rfl, by simp, by simp, ?_, hfr⟩
        · intro n hn
          simp only [List.mem_map, List.mem_range] at hn
          obtain ⟨j, hj, rfl⟩ := hn
          rw [← h]
          obtain ⟨f, hf, _⟩ := h3 j (by omega) (by omega)
          exact ⟨f, hf⟩
      | throw e => simp at h
      | ub => simp at h

theorem subNames_nodup (pre : String) (n : Nat) : ((List.range n).map (subFieldName pre)).Nodup :=
  List.Nodup.map (fun _ _ h => subFieldName_inj h) List.nodup_range

/-- The invariant linking a state field to a history. -/
structure StInv (c : Coll α U) (pre : String) (N b : Nat) (h : History (Field α U)) : Prop where
  le : b ≤ N
  state : ∃ s, c.states.find pre = some s ∧ s.nbMemory = N ∧
    s.names = (List.range (N + 1)).map (subFieldName pre) ∧
    s.indices = (List.range (N + 1)).map (slotOf N b)
  fields : ∀ k ≤ N, ∃ f, c.fields.find (subFieldName pre (slotOf N b k)) = some f ∧ h.ago k = some f

theorem StInv.old {c : Coll α U} {pre : String} {N b : Nat} {h : History (Field α U)}
    (hi : StInv c pre N b h) {k : Nat} (hk : k ≤ N) :
    ∃ f, h.ago k = some f ∧ c.stateOld pre k = .ok f := by
  obtain ⟨s, hs, _, hn, hx⟩ := hi.state
  obtain ⟨f, hf, ha⟩ := hi.fields k hk
  refine ⟨f, ha, ?_⟩
  unfold stateOld StateField.slotName
  have hlt := slotOf_lt hi.le hk
  have e1 : s.indices[k]? = some (slotOf N b k) := by
    rw [hx, List.getElem?_map, List.getElem?_range (by omega)]; rfl
  have e2 : s.names[slotOf N b k]? = some (subFieldName pre (slotOf N b k)) := by
    rw [hn, List.getElem?_map, List.getElem?_range (by omega)]; rfl
  simp only [hs, e1, e2, hf]

theorem StInv.currentName {c : Coll α U} {pre : String} {N b : Nat} {h : History (Field α U)}
    (hi : StInv c pre N b h) : c.currentName pre = .ok (subFieldName pre (slotOf N b 0)) := by
  obtain ⟨s, hs, _, hn, hx⟩ := hi.state
  unfold Coll.currentName StateField.slotName
  have hlt := slotOf_lt hi.le (Nat.zero_le N)
  have e1 : s.indices[0]? = some (slotOf N b 0) := by
    rw [hx, List.getElem?_map, List.getElem?_range (by omega)]; rfl
  have e2 : s.names[slotOf N b 0]? = some (subFieldName pre (slotOf N b 0)) := by
    rw [hn, List.getElem?_map, List.getElem?_range (by omega)]; rfl
  simp only [hs, e1, e2]

theorem StInv.current {c : Coll α U} {pre : String} {N b : Nat} {h : History (Field α U)}
    (hi : StInv c pre N b h) : c.stateCurrent pre = .ok h.now := by
  obtain ⟨f, hf, ha⟩ := hi.fields 0 (Nat.zero_le N)
  unfold stateCurrent
  rw [hi.currentName]
  simp only [hf]
  simp only [History.ago, List.getElem?_cons_zero, Option.some.injEq] at ha
  rw [ha]

/-- How a call changes the history it should have. -/
def track (N : Nat) (h : History (Field α U)) : StOp α U → History (Field α U)
  | .onCurrent op => h.modify (fun f => (op f).2)
  | .cycle => h.advance N
  | .onOther _ _ => h

/-- The call does not reach sub-fields of the state field behind its back. -/
def StOp.foreign (pre : String) : StOp α U → Prop
  | .onOther name _ => ∀ j, name ≠ subFieldName pre j
  | _ => True

theorem StInv.step {c : Coll α U} {pre : String} {N b : Nat} {h : History (Field α U)}
    (hi : StInv c pre N b h) (op : StOp α U) (hop : op.foreign pre) :
    ∃ b', StInv (c.stStep pre op).2 pre N b' (track N h op) := by
  cases op with
  | onCurrent op =>
    refine ⟨b, hi.le, ?_, ?_⟩
    · simp only [stStep, hi.currentName]
      unfold onField
      obtain ⟨f, hf, _⟩ := hi.fields 0 (Nat.zero_le N)
      simp only [hf]
      exact hi.state
    · intro k hk
      obtain ⟨f0, hf0, ha0⟩ := hi.fields 0 (Nat.zero_le N)
      obtain ⟨f, hf, ha⟩ := hi.fields k hk
      simp only [stStep, hi.currentName]
      unfold onField
      simp only [hf0, SMap.find_insert]
      by_cases hk0 : k = 0
      · subst hk0
        rw [hf0] at hf
        cases hf
        simp only [History.ago, List.getElem?_cons_zero, Option.some.injEq] at ha
        exact ⟨(op f0).2, by simp, by simp [track, History.modify, History.ago, ha]⟩
      · have hne : ¬ subFieldName pre (slotOf N b k) = subFieldName pre (slotOf N b 0) := by
          intro he
          exact hk0 (slotOf_inj hk (Nat.zero_le N) (subFieldName_inj he))
        rw [if_neg hne]
        refine ⟨f, hf, ?_⟩
        obtain ⟨k', rfl⟩ := Nat.exists_eq_succ_of_ne_zero hk0
        simpa [track, History.modify, History.ago] using ha
  | cycle =>
    refine ⟨nextSlot N b, nextSlot_le hi.le, ?_, ?_⟩
    · obtain ⟨s, hs, hm, hn, hx⟩ := hi.state
      simp only [stStep, cycle, hs]
      refine ⟨_, SMap.find_insert_self _ _ _, hm, hn, ?_⟩
      rw [hx, hm, List.map_map]
      apply List.map_congr_left
      intro k hk
      have hk' : k ≤ N := by simpa [Nat.lt_succ_iff] using hk
      simpa using cycle_slot hi.le hk'
    · obtain ⟨s, hs, hm, hn, hx⟩ := hi.state
      intro k hk
      simp only [stStep, cycle, hs]
      cases k with
      | zero =>
        obtain ⟨f, hf, ha⟩ := hi.fields N (le_refl N)
        refine ⟨f, by rw [slotOf_next_zero hi.le]; exact hf, ?_⟩
        simp only [History.ago] at ha
        simp [track, History.advance, History.ago, ha]
      | succ k =>
        obtain ⟨f, hf, ha⟩ := hi.fields k (by omega)
        refine ⟨f, by rw [slotOf_next_succ hk]; exact hf, ?_⟩
        simpa [track, History.advance, History.ago] using ha
  | onOther name op =>
    refine ⟨b, hi.le, ?_, ?_⟩
    · simp only [stStep]
      unfold onField
      cases c.fields.find name with
      | none => exact hi.state
      | some g => exact hi.state
    · intro k hk
      obtain ⟨f, hf, ha⟩ := hi.fields k hk
      refine ⟨f, ?_, ha⟩
      simp only [stStep]
      unfold onField
      cases c.fields.find name with
      | none => exact hf
      | some g =>
        simp only [SMap.find_insert]
        rw [if_neg (fun he => hop (slotOf N b k) he.symm)]
        exact hf

theorem StInv.run {pre : String} {N : Nat} (ops : List (StOp α U)) :
    ∀ {c c' : Coll α U} {b : Nat} {h : History (Field α U)}, StInv c pre N b h →
      (∀ op ∈ ops, op.foreign pre) → c.stRun pre ops = some c' →
      ∃ b', StInv c' pre N b' (ops.foldl (track N) h) := by
  induction ops with
  | nil => intro c c' b h hi _ hr; simp [stRun] at hr; subst hr; exact ⟨b, hi⟩
  | cons op ops ih =>
    intro c c' b h hi hop hr
    obtain ⟨b1, h1⟩ := hi.step op (hop op (by simp))
    unfold stRun at hr
    rcases hs : c.stStep pre op with ⟨r, c1⟩
    rw [hs] at hr h1
    cases r with
    | ub => simp at hr
    | ok u => exact ih h1 (fun o ho => hop o (by simp [ho])) hr
    | throw e => exact ih h1 (fun o ho => hop o (by simp [ho])) hr

end Coll
end Verif.Collection
