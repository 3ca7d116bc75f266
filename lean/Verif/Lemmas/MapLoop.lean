import Verif.Spec.MapLoop
import Verif.Lemmas.FieldMap
/-! Lemmas on loops over several maps. -/
set_option linter.unusedSectionVars false

namespace Verif.Collection
open Verif Verif.Ccoord Verif.Layout

variable {α U : Type}

/-- Two pieces of the same list after one of them has been replaced. -/
theorem chunk_replace {l v : List α} {k i : Nat} (hi : (i + 1) * k ≤ l.length) (hv : v.length = k) {j : Nat} :
    chunk (l.take (i * k) ++ v ++ l.drop (i * k + k)) k j = if j = i then v else chunk l k j := by
  have ei : (i + 1) * k = i * k + k := by ring
  have ht : (l.take (i * k)).length = i * k := by rw [List.length_take]; omega
  apply List.ext_getElem?
  intro p
  unfold chunk
  by_cases hp : p < k
  · rw [List.getElem?_take_of_lt hp, List.getElem?_drop, List.append_assoc]
    by_cases hj : j = i
    · subst hj
      rw [if_pos rfl, List.getElem?_append_right (by omega), List.getElem?_append_left (by omega), ht]
      congr 1; omega
    · rw [if_neg hj, List.getElem?_take_of_lt hp, List.getElem?_drop]
      rcases Nat.lt_or_gt_of_ne hj with h | h
      · have := Nat.mul_le_mul_right k (show j + 1 ≤ i from h)
        have ej : (j + 1) * k = j * k + k := by ring
        rw [List.getElem?_append_left (by omega), List.getElem?_take_of_lt (by omega)]
      · have := Nat.mul_le_mul_right k (show i + 1 ≤ j from h)
        rw [List.getElem?_append_right (by omega), List.getElem?_append_right (by omega), List.getElem?_drop]
        congr 1; omega
  · rw [List.getElem?_eq_none (by rw [List.length_take]; omega)]
    split
    · rw [List.getElem?_eq_none (by omega)]
    · rw [List.getElem?_eq_none (by rw [List.length_take]; omega)]

namespace FieldMap
variable [Inhabited α] [DecidableEq U]

/-- The piece `i` of a field. -/
def lookAt (c : Coll α U) (k : String → Nat) (i : Nat) (x : String) : List α :=
  match c.fields.find x with
  | some f => chunk f.vals (k x) i
  | none => []

/-- The maps can be used, with `k x` scalars per entry on the field `x` and at least `n x` entries. -/
structure Usable (c : Coll α U) (ms : List FieldMap) (k n : String → Nat) : Prop where
  on : ∀ m ∈ ms, ∃ f, On c m f (k m.name) ∧ n m.name * k m.name ≤ f.vals.length
  sorted : c.fields.Sorted

/-- Nothing changes but the first `n x` pieces of the fields in `xs`. -/
structure Only (c c' : Coll α U) (xs : List String) (k n : String → Nat) : Prop where
  rest : c' = { c with fields := c'.fields }
  other : ∀ x, x ∉ xs → c'.fields.find x = c.fields.find x
  field : ∀ x f, c.fields.find x = some f → ∃ vals, c'.fields.find x = some (f.withVals vals) ∧
    vals.length = f.vals.length ∧ ∀ p, n x * k x ≤ p → vals[p]? = f.vals[p]?

theorem Only.refl (c : Coll α U) (xs : List String) (k n : String → Nat) : Only c c xs k n :=
  ⟨rfl, fun _ _ => rfl, fun _ f h => ⟨f.vals, h, rfl, fun _ _ => rfl⟩⟩

theorem Only.trans {c c' c'' : Coll α U} {xs : List String} {k n : String → Nat} (h : Only c c' xs k n)
    (h' : Only c' c'' xs k n) : Only c c'' xs k n := by
  refine ⟨?_, fun x hx => (h'.other x hx).trans (h.other x hx), fun x f hf => ?_⟩
  · rw [h'.rest, h.rest]
  · obtain ⟨v, h1, h2, h3⟩ := h.field x f hf
    obtain ⟨w, g1, g2, g3⟩ := h'.field x _ h1
    exact ⟨w, g1, g2.trans h2, fun p hp => (g3 p hp).trans (h3 p hp)⟩

theorem Only.mono {c c' : Coll α U} {xs ys : List String} {k n : String → Nat} (h : Only c c' xs k n)
    (hs : ∀ x ∈ xs, x ∈ ys) : Only c c' ys k n :=
  ⟨h.rest, fun x hx => h.other x (fun h' => hx (hs x h')), h.field⟩

section
variable {c : Coll α U} {ms : List FieldMap} {k n : String → Nat}

theorem Usable.of_only (h : Usable c ms k n) {c' : Coll α U} {xs : List String} (ho : Only c c' xs k n)
    (hs : c'.fields.Sorted) : Usable c' ms k n := by
  refine ⟨fun m hm => ?_, hs⟩
  obtain ⟨f, h1, h2⟩ := h.on m hm
  obtain ⟨v, g1, g2, -⟩ := ho.field _ f h1.find
  exact ⟨_, ⟨g1, h1.ready, h1.fresh, h1.rows, h1.cols, h1.shape, h1.stride⟩, by simp only [g2]; exact h2⟩

theorem Usable.access (h : Usable c ms k n) {m : FieldMap} (hm : m ∈ ms) {i : Nat} (hi : i < n m.name) :
    access c m i = .ok (lookAt c k i m.name) ∧ (lookAt c k i m.name).length = k m.name := by
  obtain ⟨f, h1, h2⟩ := h.on m hm
  have hle := le_trans (Nat.mul_le_mul_right (k m.name) (show i + 1 ≤ n m.name from hi)) h2
  rw [lookAt, h1.find]
  exact ⟨access_ok h1 hle, chunk_length hle⟩

theorem entries_ok (h : Usable c ms k n) {i : Nat} (hi : ∀ m ∈ ms, i < n m.name) {l : List FieldMap} (hl : ∀ m ∈ l, m ∈ ms) :
    entries c i l = .ok (l.map (fun m => lookAt c k i m.name)) := by
  induction l with
  | nil => rfl
  | cons m l ih =>
    rw [entries, (h.access (hl m (by simp)) (hi m (hl m (by simp)))).1, Res.ok_bind, ih (fun m hm => hl m (by simp [hm]))]
    rfl

/-- Replacing one entry. -/
theorem replaceAt_ok (h : Usable c ms k n) {m : FieldMap} (hm : m ∈ ms) {i : Nat} (hi : i < n m.name)
    {g : List α → List α} (hg : (g (lookAt c k i m.name)).length = k m.name) :
    ∃ c', modifyAt c m g i = .ok c' ∧ c'.fields.Sorted ∧ Only c c' [m.name] k n ∧
      ∀ j x, lookAt c' k j x = if j = i ∧ x = m.name then g (lookAt c k i m.name) else lookAt c k j x := by
  obtain ⟨ha, hl⟩ := h.access hm hi
  obtain ⟨f, h1, h2⟩ := h.on m hm
  have hle := le_trans (Nat.mul_le_mul_right (k m.name) (show i + 1 ≤ n m.name from hi)) h2
  have e : (i + 1) * k m.name = i * k m.name + k m.name := by ring
  have e2 : ((i : Int) * (k m.name : Int)).toNat = i * k m.name := by
    rw [← Nat.cast_mul]; exact Int.toNat_natCast _
  refine ⟨c.withField m.name (f.withVals (f.vals.take (i * k m.name) ++ g (lookAt c k i m.name) ++
    f.vals.drop (i * k m.name + k m.name))), ?_, SMap.sorted_insert h.sorted _ _, ?_, ?_⟩
  · unfold modifyAt
    simp only [h1.find, ha, Res.ok_bind, Res.pure_eq, h1.stride, e2, hl]
  · refine ⟨rfl, fun x hx => ?_, fun x f' hf' => ?_⟩
    · exact SMap.find_insert_ne _ _ (fun e => hx (e ▸ List.mem_singleton.2 rfl))
    · by_cases hx : x = m.name
      · subst hx
        rw [h1.find] at hf'
        cases hf'
        refine ⟨_, SMap.find_insert_self _ _ _, ?_, fun p hp => ?_⟩
        · simp only [List.length_append, List.length_take, List.length_drop, hg]; omega
        · have := Nat.mul_le_mul_right (k m.name) (show i + 1 ≤ n m.name from hi)
          rw [List.getElem?_append_right (by simp only [List.length_append, List.length_take, hg]; omega),
            List.getElem?_drop]
          congr 1
          simp only [List.length_append, List.length_take, hg]; omega
      · exact ⟨f'.vals, (SMap.find_insert_ne _ _ hx).trans hf', rfl, fun _ _ => rfl⟩
  · intro j x
    by_cases hx : x = m.name
    · subst hx
      have : (c.withField m.name (f.withVals (f.vals.take (i * k m.name) ++ g (lookAt c k i m.name) ++
        f.vals.drop (i * k m.name + k m.name)))).fields.find m.name = some _ := SMap.find_insert_self _ _ _
      rw [lookAt, this]
      simp only [and_true]
      rw [chunk_replace hle hg]
      split
      · rfl
      · rw [lookAt, h1.find]
    · rw [if_neg (fun h => hx h.2)]
      simp only [lookAt, SMap.find_insert_ne _ _ hx]

variable {N : Nat}

/-- One statement in one round. -/
theorem exec_ok (h : Usable c ms k (fun _ => N)) {i : Nat} (hi : i < N) {st : LoopStmt α}
    (hf : st.Fits (ms.map (fun m => k m.name))) :
    ∃ c', exec ms i st c = .ok c' ∧ c'.fields.Sorted ∧ Only c c' (ms.map FieldMap.name) k (fun _ => N) ∧
      ∀ j x, lookAt c' k j x =
        if j = i then pointStep (ms.map FieldMap.name) st (lookAt c k i) x else lookAt c k j x := by
  obtain ⟨ht, hv⟩ := hf
  rw [List.length_map] at ht
  have hmem : ms[st.target] ∈ ms := List.getElem_mem ht
  have hes := entries_ok h (fun _ _ => hi) (l := ms) (fun _ hm => hm)
  have hlen := hv (ms.map (fun m => lookAt c k i m.name)) (by
    rw [List.map_map]
    exact List.map_congr_left (fun m hm => (h.access hm hi).2))
  rw [List.getElem?_map, List.getElem?_eq_getElem ht, Option.map_some, Option.some.injEq] at hlen
  obtain ⟨c', h1, h2, h3, h4⟩ := replaceAt_ok h hmem hi
    (g := fun _ => st.value (ms.map (fun m => lookAt c k i m.name))) hlen.symm
  refine ⟨c', ?_, h2, h3.mono (by simpa using ⟨_, hmem, rfl⟩), fun j x => ?_⟩
  · rw [exec, hes, Res.ok_bind, at!_eq_ok ht, Res.ok_bind,
      at!_eq_ok (by rw [List.length_map]; exact ht), Res.ok_bind, List.getElem_map, (h.access hmem hi).2, if_pos hlen.symm,
      h1]
  · rw [h4, pointStep, List.getElem?_map, List.getElem?_eq_getElem ht, Option.map_some]
    by_cases hj : j = i
    · subst hj
      simp only [true_and, if_true, List.map_map]
      rfl
    · simp [hj]

/-- The body in one round. -/
theorem execAll_ok {i : Nat} (hi : i < N) {body : List (LoopStmt α)}
    (hf : ∀ st ∈ body, st.Fits (ms.map (fun m => k m.name))) : ∀ {c : Coll α U}, Usable c ms k (fun _ => N) →
    ∃ c', execAll ms i body c = .ok c' ∧ c'.fields.Sorted ∧ Only c c' (ms.map FieldMap.name) k (fun _ => N) ∧
      ∀ j x, lookAt c' k j x =
        if j = i then pointRun (ms.map FieldMap.name) body (lookAt c k i) x else lookAt c k j x := by
  induction body with
  | nil =>
    intro c h
    refine ⟨c, rfl, h.sorted, Only.refl .., fun j x => ?_⟩
    split
    · subst j; rfl
    · rfl
  | cons st body ih =>
    intro c h
    obtain ⟨c1, h1, h2, h3, h4⟩ := exec_ok h hi (hf st (by simp))
    obtain ⟨c2, g1, g2, g3, g4⟩ := ih (fun st hs => hf st (by simp [hs])) (h.of_only h3 h2)
    refine ⟨c2, ?_, g2, h3.trans g3, fun j x => ?_⟩
    · rw [execAll, h1, Res.ok_bind, g1]
    · rw [g4]
      split
      · have : lookAt c1 k i = pointStep (ms.map FieldMap.name) st (lookAt c k i) := by
          funext y; rw [h4, if_pos rfl]
        rw [this]; rfl
      · rw [h4, if_neg (by assumption)]

/-- The rounds from `i` on. -/
theorem zipLoop_ok {body : List (LoopStmt α)} (hf : ∀ st ∈ body, st.Fits (ms.map (fun m => k m.name)))
    {ns : List Nat} (hmin : ∀ s ∈ ns, N ≤ s) (hmem : N ∈ ns) : ∀ (fuel i : Nat) {c : Coll α U}, Usable c ms k (fun _ => N) →
    i ≤ N → N ≤ i + fuel → ∃ c', zipLoop ms ns body fuel i c = .ok c' ∧ Only c c' (ms.map FieldMap.name) k (fun _ => N) ∧
      ∀ j x, lookAt c' k j x =
        if i ≤ j ∧ j < N then pointRun (ms.map FieldMap.name) body (lookAt c k j) x else lookAt c k j x := by
  intro fuel
  induction fuel with
  | zero =>
    intro i c h h1 h2
    have : i = N := by omega
    subst this
    refine ⟨c, by rw [zipLoop, if_pos hmem], Only.refl .., fun j x => ?_⟩
    rw [if_neg (by omega)]
  | succ fuel ih =>
    intro i c h h1 h2
    by_cases hi : i = N
    · subst hi
      refine ⟨c, by rw [zipLoop, if_pos hmem], Only.refl .., fun j x => ?_⟩
      rw [if_neg (by omega)]
    · have hlt : i < N := by omega
      have hnot : i ∉ ns := fun hm => by have := hmin i hm; omega
      obtain ⟨c1, e1, e2, e3, e4⟩ := execAll_ok hlt hf h
      obtain ⟨c2, g1, g3, g4⟩ := ih (i + 1) (h.of_only e3 e2) (by omega) (by omega)
      refine ⟨c2, ?_, e3.trans g3, fun j x => ?_⟩
      · rw [zipLoop, if_neg hnot, e1, Res.ok_bind, g1]
      · rw [g4]
        by_cases hj : j = i
        · subst hj
          rw [if_neg (by omega), if_pos ⟨le_refl _, hlt⟩, e4, if_pos rfl]
        · have hl : lookAt c1 k j = lookAt c k j := by funext y; rw [e4, if_neg hj]
          rw [hl]
          by_cases hb : i + 1 ≤ j ∧ j < N
          · rw [if_pos hb, if_pos ⟨by omega, hb.2⟩]
          · rw [if_neg hb, if_neg (by omega)]

theorem sizes_ok {s : FieldMap → Nat} : ∀ {l : List FieldMap}, (∀ m ∈ l, size c m = .ok (s m)) →
    sizes c l = .ok (l.map s)
  | [], _ => rfl
  | m :: l, h => by
    rw [sizes, h m (by simp), Res.ok_bind, sizes_ok (fun m hm => h m (by simp [hm]))]
    rfl

theorem forZip_ok (h : Usable c ms k (fun _ => N)) {body : List (LoopStmt α)}
    (hf : ∀ st ∈ body, st.Fits (ms.map (fun m => k m.name))) {s : FieldMap → Nat}
    (hs : ∀ m ∈ ms, size c m = .ok (s m)) (hmin : ∀ m ∈ ms, N ≤ s m) (hmem : ∃ m ∈ ms, s m = N) :
    ∃ c', forZip c ms body = .ok c' ∧ Only c c' (ms.map FieldMap.name) k (fun _ => N) ∧
      ∀ j x, lookAt c' k j x =
        if j < N then pointRun (ms.map FieldMap.name) body (lookAt c k j) x else lookAt c k j x := by
  have hmem' : N ∈ ms.map s := by
    obtain ⟨m, hm, rfl⟩ := hmem
    exact List.mem_map_of_mem hm
  have hhead : N ≤ (ms.map s).headD 0 := by
    cases ms with
    | nil => cases hmem'
    | cons m ms => exact hmin m (by simp)
  obtain ⟨c', h1, h2, h3⟩ := zipLoop_ok hf (ns := ms.map s) (by
    intro x hx
    obtain ⟨m, hm, rfl⟩ := List.mem_map.1 hx
    exact hmin m hm) hmem' ((ms.map s).headD 0) 0 h (Nat.zero_le _) (by omega)
  refine ⟨c', ?_, h2, fun j x => ?_⟩
  · rw [forZip, if_neg, sizes_ok hs, Res.ok_bind, h1]
    rw [List.any_eq_true]
    rintro ⟨m, hm, h'⟩
    obtain ⟨f, h1, -⟩ := h.on m hm
    rw [h1.ready] at h'
    cases h'
  · rw [h3]
    simp

/-! ## A value which is an entry itself -/

/-- The value lies in another field, or is an entry of the field itself. -/
theorem assignLoop_ok {m m2 : FieldMap} {op : α → α → α} {q stop : Nat} (hk : k m2.name = k m.name) (hq : q < n m2.name)
    (hstop : stop ≤ n m.name) : ∀ (fuel i : Nat) {c : Coll α U}, Usable c [m, m2] k n → i + fuel = stop →
    ∃ c', assignLoop m m2 op q stop fuel i c = .ok c' ∧ Only c c' [m.name] k n ∧
      ∀ j x, lookAt c' k j x =
        if x = m.name ∧ i ≤ j ∧ j < stop then
          List.zipWith op (lookAt c k j x)
            (if m2.name = m.name ∧ i ≤ q ∧ q < j then
              List.zipWith op (lookAt c k q m2.name) (lookAt c k q m2.name) else lookAt c k q m2.name)
        else lookAt c k j x := by
  intro fuel
  induction fuel with
  | zero =>
    intro i c h hi
    refine ⟨c, by rw [assignLoop, if_pos (by omega)], Only.refl .., fun j x => ?_⟩
    rw [if_neg (by omega)]
  | succ fuel ih =>
    intro i c h hi
    obtain ⟨a1, a2⟩ := h.access (m := m2) (by simp) hq
    obtain ⟨b1, b2⟩ := h.access (m := m) (by simp) (i := i) (by omega)
    obtain ⟨c1, e1, e2, e3, e4⟩ := replaceAt_ok h (m := m) (by simp) (i := i) (by omega)
      (g := fun old => List.zipWith op old (lookAt c k q m2.name)) (by
        rw [List.length_zipWith, b2, a2, hk, Nat.min_self])
    obtain ⟨c2, g1, g2, g3⟩ := ih (i + 1) (h.of_only e3 e2) (by omega)
    refine ⟨c2, ?_, e3.trans g2, fun j x => ?_⟩
    · rw [assignLoop, if_neg (by omega), a1, Res.ok_bind, e1, Res.ok_bind, g1]
    · rw [g3]
      by_cases hx : x = m.name
      · subst hx
        by_cases hj : j = i
        · subst hj
          rw [if_neg (by omega), if_pos ⟨rfl, le_refl _, by omega⟩, e4, if_pos ⟨rfl, rfl⟩,
            if_neg (by omega)]
        · by_cases hr : i + 1 ≤ j ∧ j < stop
          · rw [if_pos (show m.name = m.name ∧ i + 1 ≤ j ∧ j < stop from ⟨rfl, hr⟩),
              if_pos (show m.name = m.name ∧ i ≤ j ∧ j < stop from ⟨rfl, by omega, hr.2⟩), e4, if_neg (fun h => hj h.1), e4]
            congr 1
            by_cases hm : m2.name = m.name
            · rw [hm]
              simp only [true_and, and_true]
              by_cases hqi : q = i
              · subst hqi
                rw [if_neg (by omega), if_pos rfl, if_pos (by omega)]
              · rw [if_neg hqi]
                by_cases hqq : i + 1 ≤ q ∧ q < j
                · rw [if_pos hqq, if_pos (by omega)]
                · rw [if_neg hqq, if_neg (by omega)]
            · rw [if_neg (fun h => hm h.1), if_neg (fun h => hm h.2), if_neg (fun h => hm h.1)]
          · rw [if_neg (fun h => hr h.2), if_neg (by omega), e4, if_neg (fun h => hj h.1)]
      · rw [if_neg (fun h => hx h.1), if_neg (fun h => hx h.1), e4, if_neg (fun h => hx h.2)]

end
end FieldMap
end Verif.Collection
