import Mathlib.Tactic.Common
import Verif.Model.Dictionary
import Verif.Lemmas.SMap
/-
Property C28 (dictionaries as nested maps with shared handles) and C57 (python item assignment).
-/
namespace Verif.Props
open Verif

variable {R : Type}

/-! ## Observations

What a program can see of the object graph: the scalar at a node and the child under a key. -/

/-- The scalar a node holds, if it holds one. -/
def scalarAt (heap : List (DVal R)) (n : Nat) : Option (DScalar R) :=
  match heap[n]? with
  | some (.int i) => some (.int i)
  | some (.real r) => some (.real r)
  | some (.mat m) => some (.mat m)
  | _ => none

/-- The node stored under a key. -/
def childAt (heap : List (DVal R)) (n : Nat) (key : String) : Option Nat :=
  match heap[n]? with
  | some (.dict m) => m.find key
  | _ => none

/-- Whether a node is a dictionary. -/
def isDictAt (heap : List (DVal R)) (n : Nat) : Bool :=
  match heap[n]? with
  | some (.dict _) => true
  | _ => false

/-- The node reached along a path of keys, together with the nodes passed on the way. -/
def follow (heap : List (DVal R)) (n : Nat) : List String → Option (List Nat × Nat)
  | [] => some ([], n)
  | k :: ks =>
      match childAt heap n k with
      | none => none
      | some c => (follow heap c ks).map (fun p => (n :: p.1, p.2))

/-- All references lead to existing objects. -/
structure DWf (s : DState R) : Prop where
  handles : ∀ n ∈ s.handles, n < s.heap.length
  children : ∀ n k c, childAt s.heap n k = some c → c < s.heap.length

theorem node_eq_ok {s : DState R} {h n : Nat} {v : DVal R} :
    s.node h = .ok (n, v) ↔ s.handles[h]? = some n ∧ s.heap[n]? = some v := by
  unfold DState.node at!
  cases h1 : s.handles[h]? with
  | none => simp
  | some m =>
    simp only [Res.ok_bind, Option.some.injEq]
    cases h2 : s.heap[m]? with
    | none =>
      simp only [Res.ub_bind, reduceCtorEq, false_iff]
      rintro ⟨rfl, h⟩
      rw [h2] at h; cases h
    | some w =>
      simp only [Res.ok_bind, Res.pure_eq, Res.ok.injEq, Prod.mk.injEq]
      constructor
      · rintro ⟨rfl, rfl⟩; exact ⟨rfl, h2⟩
      · rintro ⟨rfl, h⟩; rw [h2] at h; exact ⟨rfl, Option.some.inj h⟩

theorem node_not_throw (s : DState R) (h : Nat) (e : Err) : s.node h ≠ .throw e := by
  unfold DState.node at!
  split <;> simp
  split <;> simp

theorem find_emplace (m : SMap String Nat) (k k' : String) (c : Nat) (hm : m.find k = none) :
    (m.emplace k c).find k' = if k' = k then some c else m.find k' := by
  unfold SMap.emplace
  rw [hm]
  exact SMap.find_insert m k k' c

/-- The operations assign a scalar to node `n`. -/
def assigns (s : DState R) (n : Nat) : DState.Op R → Prop
  | .assign h _ => s.handles[h]? = some n
  | .assignFrom h _ => s.handles[h]? = some n
  | _ => False

/-- No statement of the program assigns a scalar to node `n`. -/
def NeverAssigned (n : Nat) : DState R → List (DState.Op R) → Prop
  | _, [] => True
  | s, op :: ops => ¬ assigns s n op ∧ NeverAssigned n (s.step op).2 ops

/-! ## C28 -/

/-- **C28** A failing statement changes nothing (neither values nor handles). -/
theorem C28_failure (s : DState R) (op : DState.Op R) {e : Err} (h : (s.step op).1 = .throw e) :
    (s.step op).2 = s := by
  revert h
  cases op <;> unfold DState.step <;> simp only [] <;> repeat (first | split | (intro h; first | rfl | cases h))

/-- **C28** When does a statement fail, and how: adding an existing key, adding to or indexing a value
that is not a dictionary, and indexing a missing key. -/
theorem C28_errors {s : DState R} {h n : Nat} {w : DVal R} (hn : s.node h = .ok (n, w)) (key : String)
    (v : DScalar R) :
    ((s.step (.add h key v)).1 =
      if isDictAt s.heap n then if (childAt s.heap n key).isSome then .throw .keyError else .ok ()
      else .throw .valueError) ∧
    ((s.step (.index h key)).1 =
      if isDictAt s.heap n then if (childAt s.heap n key).isSome then .ok () else .throw .outOfRange
      else .throw .valueError) ∧
    (s.step (.assign h v)).1 = .ok () := by
  obtain ⟨h1, h2⟩ := node_eq_ok.1 hn
  unfold DState.step isDictAt childAt
  simp only [hn, h2]
  cases w with
  | dict m => cases hf : m.find key <;> simp [hf]
  | int i => simp
  | real r => simp
  | mat m => simp

theorem scalarAt_append {heap : List (DVal R)} {n : Nat} (h : n < heap.length) (l : List (DVal R)) :
    scalarAt (heap ++ l) n = scalarAt heap n := by
  unfold scalarAt; rw [List.getElem?_append_left h]

theorem childAt_append {heap : List (DVal R)} {n : Nat} (h : n < heap.length) (l : List (DVal R))
    (k : String) : childAt (heap ++ l) n k = childAt heap n k := by
  unfold childAt; rw [List.getElem?_append_left h]

theorem scalarAt_set_ne {heap : List (DVal R)} {n m : Nat} (h : m ≠ n) (v : DVal R) :
    scalarAt (heap.set n v) m = scalarAt heap m := by
  unfold scalarAt; rw [List.getElem?_set_ne (Ne.symm h)]

theorem childAt_set_ne {heap : List (DVal R)} {n m : Nat} (h : m ≠ n) (v : DVal R) (k : String) :
    childAt (heap.set n v) m k = childAt heap m k := by
  unfold childAt; rw [List.getElem?_set_ne (Ne.symm h)]

theorem lt_of_scalarAt {heap : List (DVal R)} {n : Nat} {v : DScalar R} (h : scalarAt heap n = some v) :
    n < heap.length := by
  by_contra hc
  unfold scalarAt at h
  rw [List.getElem?_eq_none (by omega)] at h
  cases h

theorem lt_of_childAt {heap : List (DVal R)} {n : Nat} {k : String} {c : Nat}
    (h : childAt heap n k = some c) : n < heap.length := by
  by_contra hc
  unfold childAt at h
  rw [List.getElem?_eq_none (by omega)] at h
  cases h

theorem scalarAt_set_dict {heap : List (DVal R)} {n : Nat} {m0 : SMap String Nat}
    (h : heap[n]? = some (.dict m0)) (m1 : SMap String Nat) (x : Nat) :
    scalarAt (heap.set n (.dict m1)) x = scalarAt heap x := by
  by_cases hx : x = n
  · subst hx
    unfold scalarAt
    rw [List.getElem?_set_self (by exact (List.getElem?_eq_some_iff.1 h).1), h]
  · exact scalarAt_set_ne hx _

theorem childAt_set_dict {heap : List (DVal R)} {n : Nat} (hn : n < heap.length) (m1 : SMap String Nat)
    (k : String) : childAt (heap.set n (.dict m1)) n k = m1.find k := by
  unfold childAt
  rw [List.getElem?_set_self hn]

theorem scalarAt_set_val {heap : List (DVal R)} {n : Nat} (hn : n < heap.length) (v : DScalar R) :
    scalarAt (heap.set n v.val) n = some v := by
  unfold scalarAt
  rw [List.getElem?_set_self hn]
  cases v <;> rfl

theorem scalarAt_push (heap : List (DVal R)) (v : DScalar R) (l : List (DVal R)) :
    scalarAt (heap ++ v.val :: l) heap.length = some v := by
  unfold scalarAt
  rw [List.getElem?_append_right (by omega)]
  cases v <;> simp [DScalar.val]

/-- **C28** Adding a value: it is found under the key, in a node of its own; every other key of every
dictionary, every scalar and every handle is as before. -/
theorem C28_add {s s' : DState R} {h n : Nat} {w : DVal R} (hn : s.node h = .ok (n, w)) {key : String}
    {v : DScalar R} (hs : s.step (.add h key v) = (.ok (), s')) :
    childAt s'.heap n key = some s.heap.length ∧ scalarAt s'.heap s.heap.length = some v ∧
    (∀ n' < s.heap.length, ∀ key', (n', key') ≠ (n, key) → childAt s'.heap n' key' = childAt s.heap n' key') ∧
    (∀ n' < s.heap.length, scalarAt s'.heap n' = scalarAt s.heap n') ∧ s'.handles = s.handles := by
  obtain ⟨h1, h2⟩ := node_eq_ok.1 hn
  have hlt : n < s.heap.length := (List.getElem?_eq_some_iff.1 h2).1
  unfold DState.step at hs
  simp only [hn] at hs
  cases w with
  | dict m =>
    simp only [] at hs
    cases hf : m.find key with
    | some _ => rw [hf] at hs; cases hs
    | none =>
      rw [hf] at hs
      simp only [Prod.mk.injEq, true_and] at hs
      subst hs
      have h2' : (s.heap ++ [v.val])[n]? = some (.dict m) := by rw [List.getElem?_append_left hlt, h2]
      have hlt' : n < (s.heap ++ [v.val]).length := by simp; omega
      refine ⟨?_, ?_, ?_, ?_, rfl⟩
      · rw [childAt_set_dict hlt', find_emplace _ _ _ _ hf, if_pos rfl]
      · rw [scalarAt_set_dict h2', scalarAt_push]
      · intro n' hn' key' hne
        by_cases hx : n' = n
        · subst hx
          rw [childAt_set_dict hlt', find_emplace _ _ _ _ hf, if_neg (fun hk => hne (by rw [hk]))]
          unfold childAt; rw [h2]
        · rw [childAt_set_ne hx, childAt_append hn']
      · intro n' hn'
        rw [scalarAt_set_dict h2', scalarAt_append hn']
  | int i => cases hs
  | real r => cases hs
  | mat m => cases hs

/-- **C28** Adding a dictionary: the key leads to the very object the other handle refers to, so later
changes through either are seen through both; nothing else changes. -/
theorem C28_add_dict {s s' : DState R} {h h2 n n2 : Nat} {w w2 : DVal R} (hn : s.node h = .ok (n, w))
    (hn2 : s.node h2 = .ok (n2, w2)) {key : String} (hs : s.step (.addDict h key h2) = (.ok (), s')) :
    childAt s'.heap n key = some n2 ∧
    (∀ n' key', (n', key') ≠ (n, key) → childAt s'.heap n' key' = childAt s.heap n' key') ∧
    (∀ n', scalarAt s'.heap n' = scalarAt s.heap n') ∧ s'.handles = s.handles := by
  obtain ⟨h1, h2⟩ := node_eq_ok.1 hn
  have hlt : n < s.heap.length := (List.getElem?_eq_some_iff.1 h2).1
  unfold DState.step at hs
  simp only [hn, hn2] at hs
  cases w with
  | dict m =>
    simp only [] at hs
    cases hf : m.find key with
    | some _ => rw [hf] at hs; cases hs
    | none =>
      rw [hf] at hs
      simp only [Prod.mk.injEq, true_and] at hs
      subst hs
      refine ⟨?_, ?_, ?_, rfl⟩
      · rw [childAt_set_dict hlt, find_emplace _ _ _ _ hf, if_pos rfl]
      · intro n' key' hne
        by_cases hx : n' = n
        · subst hx
          rw [childAt_set_dict hlt, find_emplace _ _ _ _ hf, if_neg (fun hk => hne (by rw [hk]))]
          unfold childAt; rw [h2]
        · rw [childAt_set_ne hx]
      · intro n'
        rw [scalarAt_set_dict h2]
  | int i => cases hs
  | real r => cases hs
  | mat m => cases hs

/-- **C28** `operator[]` gives a handle to the stored object itself. -/
theorem C28_index {s s' : DState R} {h n : Nat} {w : DVal R} (hn : s.node h = .ok (n, w)) {key : String}
    (hs : s.step (.index h key) = (.ok (), s')) :
    s'.heap = s.heap ∧ ∃ c, childAt s.heap n key = some c ∧ s'.handles = s.handles ++ [c] := by
  obtain ⟨h1, h2⟩ := node_eq_ok.1 hn
  unfold DState.step at hs
  simp only [hn] at hs
  unfold childAt
  rw [h2]
  cases w with
  | dict m =>
    simp only [] at hs ⊢
    cases hf : m.find key with
    | none => rw [hf] at hs; cases hs
    | some c =>
      rw [hf] at hs
      simp only [Prod.mk.injEq, true_and] at hs
      subst hs
      exact ⟨rfl, c, rfl, rfl⟩
  | int i => cases hs
  | real r => cases hs
  | mat m => cases hs

/-- **C28** Assigning through a handle changes exactly the object the handle refers to. -/
theorem C28_assign {s s' : DState R} {h n : Nat} {w : DVal R} (hn : s.node h = .ok (n, w)) {v : DScalar R}
    (hs : s.step (.assign h v) = (.ok (), s')) :
    scalarAt s'.heap n = some v ∧ (∀ key, childAt s'.heap n key = none) ∧
    (∀ n' ≠ n, scalarAt s'.heap n' = scalarAt s.heap n' ∧
      ∀ key, childAt s'.heap n' key = childAt s.heap n' key) ∧ s'.handles = s.handles := by
  obtain ⟨h1, h2⟩ := node_eq_ok.1 hn
  have hlt : n < s.heap.length := (List.getElem?_eq_some_iff.1 h2).1
  unfold DState.step at hs
  simp only [hn, Prod.mk.injEq, true_and] at hs
  subst hs
  refine ⟨scalarAt_set_val hlt v, ?_, ?_, rfl⟩
  · intro key
    unfold childAt
    rw [List.getElem?_set_self hlt]
    cases v <;> rfl
  · intro n' hne
    exact ⟨scalarAt_set_ne hne _, fun key => childAt_set_ne hne _ _⟩

/-- **C28** The typed getters return the scalar exactly if it has that type. -/
theorem C28_get {s : DState R} {h n : Nat} {w : DVal R} (hn : s.node h = .ok (n, w)) :
    (s.getInt h = match scalarAt s.heap n with | some (.int i) => .ok i | _ => .throw .valueError) ∧
    (s.getReal h = match scalarAt s.heap n with | some (.real r) => .ok r | _ => .throw .valueError) ∧
    (s.getMatrix h = match scalarAt s.heap n with | some (.mat m) => .ok m | _ => .throw .valueError) := by
  obtain ⟨h1, h2⟩ := node_eq_ok.1 hn
  unfold DState.getInt DState.getReal DState.getMatrix scalarAt
  rw [hn, h2]
  simp only [Res.ok_bind]
  cases w <;> simp

/-- **C28** Every handle that refers to the same object sees the assigned value, whichever way it was
obtained: after `auto e = d[key]; e = v;` the value under `key` in `d` is `v` (unless `d` contains itself
under that key, see `C28_cycle`). -/
theorem C28_alias {s s1 s2 : DState R} {h n : Nat} {w : DVal R} (hn : s.node h = .ok (n, w)) {key : String}
    (h1 : s.step (.index h key) = (.ok (), s1)) {v : DScalar R}
    (h2 : s1.step (.assign s.handles.length v) = (.ok (), s2)) (hc : childAt s.heap n key ≠ some n) :
    ∃ c, childAt s2.heap n key = some c ∧ scalarAt s2.heap c = some v := by
  obtain ⟨e1, c, hc1, e2⟩ := C28_index hn h1
  have hh : s1.handles[s.handles.length]? = some c := by rw [e2]; simp
  have hnode : ∃ w', s1.node s.handles.length = .ok (c, w') := by
    by_contra hno
    have : s1.heap[c]? = none := by
      cases hx : s1.heap[c]? with
      | none => rfl
      | some w' => exact absurd ⟨w', node_eq_ok.2 ⟨hh, hx⟩⟩ hno
    have hub : s1.node s.handles.length = .ub := by
      unfold DState.node at!
      rw [hh]
      simp only [Res.ok_bind, this, Res.ub_bind]
    unfold DState.step at h2
    simp only [hub, Prod.mk.injEq, reduceCtorEq, false_and] at h2
  obtain ⟨w', hw'⟩ := hnode
  obtain ⟨a, _, b, _⟩ := C28_assign hw' h2
  refine ⟨c, ?_, a⟩
  have hne : n ≠ c := fun he => hc (by rw [hc1, he])
  rw [(b n hne).2, e1, hc1]

theorem step_frame (s : DState R) (op : DState.Op R) (n : Nat) (ha : ¬ assigns s n op) :
    (∀ v, scalarAt s.heap n = some v → scalarAt (s.step op).2.heap n = some v) ∧
    (∀ k c, childAt s.heap n k = some c → childAt (s.step op).2.heap n k = some c) := by
  constructor
  · intro v hv
    have hlt := lt_of_scalarAt hv
    cases op with
    | empty => rw [← hv]; exact scalarAt_append hlt _
    | single key x => rw [← hv]; exact scalarAt_append hlt _
    | copy h => unfold DState.step; simp only []; split <;> exact hv
    | rebind h h2 => unfold DState.step; simp only []; split <;> exact hv
    | index h key =>
      unfold DState.step; simp only []; repeat (first | split | exact hv)
    | add h key x =>
      unfold DState.step; simp only []
      split
      · rename_i n0 m0 hnode
        obtain ⟨_, e2⟩ := node_eq_ok.1 hnode
        have hl0 : n0 < s.heap.length := (List.getElem?_eq_some_iff.1 e2).1
        split
        · exact hv
        · rw [scalarAt_set_dict (m0 := m0) (by rw [List.getElem?_append_left hl0, e2]), scalarAt_append hlt, hv]
      · exact hv
      · exact hv
    | addDict h key h2 =>
      unfold DState.step; simp only []
      split
      · rename_i n0 m0 n2 w2 hnode hnode2
        obtain ⟨_, e2⟩ := node_eq_ok.1 hnode
        split
        · exact hv
        · rw [scalarAt_set_dict e2, hv]
      · exact hv
      · exact hv
    | assign h x =>
      unfold DState.step; simp only []
      split
      · rename_i n0 w0 hnode
        obtain ⟨e1, _⟩ := node_eq_ok.1 hnode
        rw [scalarAt_set_ne (fun he => ha (by subst he; exact e1)), hv]
      · exact hv
    | assignFrom h h2 =>
      unfold DState.step; simp only []
      split
      · rename_i n0 w0 n2 m2 hnode hnode2
        obtain ⟨e1, _⟩ := node_eq_ok.1 hnode
        split
        · exact hv
        · rw [scalarAt_set_ne (fun he => ha (by subst he; exact e1)), hv]
      · exact hv
      · exact hv
  · intro k c hv
    have hlt := lt_of_childAt hv
    cases op with
    | empty => rw [← hv]; exact childAt_append hlt _ _
    | single key x => rw [← hv]; exact childAt_append hlt _ _
    | copy h => unfold DState.step; simp only []; split <;> exact hv
    | rebind h h2 => unfold DState.step; simp only []; split <;> exact hv
    | index h key =>
      unfold DState.step; simp only []; repeat (first | split | exact hv)
    | add h key x =>
      unfold DState.step; simp only []
      split
      · rename_i n0 m0 hnode
        obtain ⟨_, e2⟩ := node_eq_ok.1 hnode
        have hl0 : n0 < s.heap.length := (List.getElem?_eq_some_iff.1 e2).1
        split
        · exact hv
        · rename_i hf
          by_cases hx : n = n0
          · subst hx
            rw [childAt_set_dict (by simp; omega), find_emplace _ _ _ _ hf]
            unfold childAt at hv
            rw [e2] at hv
            have hv' : m0.find k = some c := hv
            rw [if_neg, hv']
            rintro rfl
            rw [hf] at hv'
            cases hv'
          · rw [childAt_set_ne hx, childAt_append hlt, hv]
      · exact hv
      · exact hv
    | addDict h key h2 =>
      unfold DState.step; simp only []
      split
      · rename_i n0 m0 n2 w2 hnode hnode2
        obtain ⟨_, e2⟩ := node_eq_ok.1 hnode
        split
        · exact hv
        · rename_i hf
          by_cases hx : n = n0
          · subst hx
            rw [childAt_set_dict hlt, find_emplace _ _ _ _ hf]
            unfold childAt at hv
            rw [e2] at hv
            have hv' : m0.find k = some c := hv
            rw [if_neg, hv']
            rintro rfl
            rw [hf] at hv'
            cases hv'
          · rw [childAt_set_ne hx, hv]
      · exact hv
      · exact hv
    | assign h x =>
      unfold DState.step; simp only []
      split
      · rename_i n0 w0 hnode
        obtain ⟨e1, _⟩ := node_eq_ok.1 hnode
        rw [childAt_set_ne (fun he => ha (by subst he; exact e1)), hv]
      · exact hv
    | assignFrom h h2 =>
      unfold DState.step; simp only []
      split
      · rename_i n0 w0 n2 m2 hnode hnode2
        obtain ⟨e1, _⟩ := node_eq_ok.1 hnode
        split
        · exact hv
        · rw [childAt_set_ne (fun he => ha (by subst he; exact e1)), hv]
      · exact hv
      · exact hv

/-- **C28** The last stored value stays: over any program that does not assign to the object, a scalar
keeps its value and a key keeps leading to the same object. -/
theorem C28_persist {ops : List (DState.Op R)} : ∀ {s s' : DState R} {n : Nat}, NeverAssigned n s ops →
    s.run ops = some s' →
    (∀ v, scalarAt s.heap n = some v → scalarAt s'.heap n = some v) ∧
    (∀ k c, childAt s.heap n k = some c → childAt s'.heap n k = some c) := by
  induction ops with
  | nil =>
    intro s s' n _ h
    unfold DState.run at h
    cases h
    exact ⟨fun _ h => h, fun _ _ h => h⟩
  | cons op ops ih =>
    intro s s' n ha h
    obtain ⟨h1, h2⟩ := step_frame s op n ha.1
    have hr : (s.step op).2.run ops = some s' := by
      unfold DState.run at h
      split at h
      · cases h
      · rename_i r s1 _ heq
        rw [heq]; exact h
    obtain ⟨h3, h4⟩ := ih ha.2 hr
    exact ⟨fun v hv => h3 v (h1 v hv), fun k c hc => h4 k c (h2 k c hc)⟩

/-- **C28** Key paths: a path leads to the same object as long as none of the dictionaries it passes
through is overwritten by a scalar; so the value last assigned to that object is read. -/
theorem C28_path {ops : List (DState.Op R)} {s s' : DState R} (hr : s.run ops = some s') :
    ∀ {path : List String} {n c : Nat} {ns : List Nat}, follow s.heap n path = some (ns, c) →
    (∀ m ∈ ns, NeverAssigned m s ops) →
    follow s'.heap n path = some (ns, c) ∧
    (NeverAssigned c s ops → ∀ v, scalarAt s.heap c = some v → scalarAt s'.heap c = some v) := by
  intro path n c ns h hns
  refine ⟨?_, fun hc => (C28_persist hc hr).1⟩
  revert n ns
  induction path with
  | nil => intro n ns h _; exact h
  | cons k ks ih =>
    intro n ns h hns
    unfold follow at h ⊢
    cases hk : childAt s.heap n k with
    | none => rw [hk] at h; cases h
    | some d =>
      rw [hk] at h
      simp only [] at h
      cases hf : follow s.heap d ks with
      | none => rw [hf] at h; cases h
      | some p =>
        rw [hf] at h
        simp only [Option.map_some, Option.some.injEq, Prod.mk.injEq] at h
        obtain ⟨rfl, rfl⟩ := h
        rw [(C28_persist (hns n (by simp)) hr).2 k d hk]
        simp only []
        rw [ih (n := d) (ns := p.1) hf (fun m hm => hns m (by simp [hm]))]
        rfl

/-- All references lead to objects, in every state a program can reach. -/
theorem step_wf {s : DState R} (hw : DWf s) (op : DState.Op R) : DWf (s.step op).2 := by
  have hh : ∀ {h n : Nat}, s.handles[h]? = some n → n < s.heap.length := by
    intro h n e
    obtain ⟨hl, e⟩ := List.getElem?_eq_some_iff.1 e
    exact hw.handles n (e ▸ List.getElem_mem hl)
  have hset : ∀ (heap : List (DVal R)) (n : Nat) (m : SMap String Nat) (key : String) (c N : Nat),
      heap[n]? = some (.dict m) → m.find key = none → c < N →
      (∀ n k c, childAt heap n k = some c → c < N) →
      ∀ n' k' c', childAt (heap.set n (.dict (m.emplace key c))) n' k' = some c' → c' < N := by
    intro heap n m key c N e hf hc hch n' k' c' h
    by_cases hx : n' = n
    · subst hx
      rw [childAt_set_dict (List.getElem?_eq_some_iff.1 e).1, find_emplace _ _ _ _ hf] at h
      split at h
      · cases h; exact hc
      · refine hch n' k' c' ?_
        unfold childAt; rw [e]; exact h
    · rw [childAt_set_ne hx] at h
      exact hch _ _ _ h
  have hsetv : ∀ (n : Nat) (v : DScalar R), ∀ n' k' c', childAt (s.heap.set n v.val) n' k' = some c' →
      c' < s.heap.length := by
    intro n v n' k' c' h
    by_cases hx : n' = n
    · subst hx
      have hlt : n' < s.heap.length := by simpa using lt_of_childAt h
      unfold childAt at h
      rw [List.getElem?_set_self hlt] at h
      cases v <;> cases h
    · rw [childAt_set_ne hx] at h
      exact hw.children _ _ _ h
  cases op with
  | empty =>
    refine ⟨?_, ?_⟩
    · intro n hn
      simp only [DState.step, List.mem_append, List.mem_singleton] at hn
      simp only [DState.step, List.length_append, List.length_cons, List.length_nil]
      rcases hn with hn | rfl
      · have := hw.handles n hn; omega
      · omega
    · intro n k c h
      simp only [DState.step, List.length_append, List.length_cons, List.length_nil] at h ⊢
      have hlt := lt_of_childAt h
      simp only [List.length_append, List.length_cons, List.length_nil] at hlt
      by_cases hn : n < s.heap.length
      · rw [childAt_append hn] at h
        have := hw.children _ _ _ h; omega
      · have : n = s.heap.length := by omega
        subst this
        unfold childAt at h
        simp at h
  | single key v =>
    refine ⟨?_, ?_⟩
    · intro n hn
      simp only [DState.step, List.mem_append, List.mem_singleton] at hn
      simp only [DState.step, List.length_append, List.length_cons, List.length_nil]
      rcases hn with hn | rfl
      · have := hw.handles n hn; omega
      · omega
    · intro n k c h
      simp only [DState.step, List.length_append, List.length_cons, List.length_nil] at h ⊢
      have hlt := lt_of_childAt h
      simp only [List.length_append, List.length_cons, List.length_nil] at hlt
      by_cases hn : n < s.heap.length
      · rw [childAt_append hn] at h
        have := hw.children _ _ _ h; omega
      · unfold childAt at h
        rw [List.getElem?_append_right (by omega)] at h
        have : n - s.heap.length = 0 ∨ n - s.heap.length = 1 := by omega
        rcases this with e | e
        · rw [e] at h; cases v <;> cases h
        · rw [e] at h
          simp only [List.getElem?_cons_succ, List.getElem?_cons_zero, SMap.find_cons] at h
          split at h
          · cases h; omega
          · cases h
  | copy h =>
    unfold DState.step; simp only []
    split
    · rename_i n w hnode
      refine ⟨?_, hw.children⟩
      intro x hx
      rcases List.mem_append.1 hx with hx | hx
      · exact hw.handles x hx
      · rw [List.mem_singleton.1 hx]; exact hh (node_eq_ok.1 hnode).1
    · exact hw
  | rebind h h2 =>
    unfold DState.step; simp only []
    split
    · rename_i n w n2 hnode hnode2
      refine ⟨?_, hw.children⟩
      intro x hx
      rcases List.mem_or_eq_of_mem_set hx with hx | rfl
      · exact hw.handles x hx
      · exact hh (node_eq_ok.1 hnode2).1
    · exact hw
  | index h key =>
    unfold DState.step; simp only []
    split
    · rename_i n m hnode
      split
      · rename_i c hf
        refine ⟨?_, hw.children⟩
        intro x hx
        rcases List.mem_append.1 hx with hx | hx
        · exact hw.handles x hx
        · rw [List.mem_singleton.1 hx]
          refine hw.children n key c ?_
          unfold childAt; rw [(node_eq_ok.1 hnode).2]; exact hf
      · exact hw
    · exact hw
    · exact hw
  | add h key v =>
    unfold DState.step; simp only []
    split
    · rename_i n m hnode
      obtain ⟨_, e2⟩ := node_eq_ok.1 hnode
      have hl := (List.getElem?_eq_some_iff.1 e2).1
      split
      · exact hw
      · rename_i hf
        refine ⟨?_, ?_⟩
        · intro x hx
          have := hw.handles x hx
          simp; omega
        · simp only [List.length_set, List.length_append, List.length_cons, List.length_nil]
          refine hset _ _ _ _ _ _ (by rw [List.getElem?_append_left hl, e2]) hf (by omega) ?_
          intro n' k' c' h'
          by_cases hn' : n' < s.heap.length
          · rw [childAt_append hn'] at h'
            have := hw.children _ _ _ h'; omega
          · have hlt := lt_of_childAt h'
            simp only [List.length_append, List.length_cons, List.length_nil] at hlt
            unfold childAt at h'
            rw [List.getElem?_append_right (by omega)] at h'
            have : n' - s.heap.length = 0 := by omega
            rw [this] at h'
            cases v <;> cases h'
    · exact hw
    · exact hw
  | addDict h key h2 =>
    unfold DState.step; simp only []
    split
    · rename_i n m n2 w2 hnode hnode2
      obtain ⟨_, e2⟩ := node_eq_ok.1 hnode
      split
      · exact hw
      · rename_i hf
        refine ⟨fun x hx => by simpa using hw.handles x hx, ?_⟩
        simp only [List.length_set]
        exact hset _ _ _ _ _ _ e2 hf (hh (node_eq_ok.1 hnode2).1) hw.children
    · exact hw
    · exact hw
  | assign h v =>
    unfold DState.step; simp only []
    split
    · refine ⟨fun x hx => by simpa using hw.handles x hx, ?_⟩
      simp only [List.length_set]
      exact hsetv _ v
    · exact hw
  | assignFrom h h2 =>
    unfold DState.step; simp only []
    split
    · split
      · exact hw
      · refine ⟨fun x hx => by simpa using hw.handles x hx, ?_⟩
        simp only [List.length_set]
        exact hsetv _ (.mat _)
    · exact hw
    · exact hw

/-- The handles a statement mentions exist. -/
def Mentions (s : DState R) : DState.Op R → Prop
  | .empty | .single _ _ => True
  | .copy h | .index h _ | .add h _ _ | .assign h _ => h < s.handles.length
  | .rebind h h2 | .addDict h _ h2 | .assignFrom h h2 => h < s.handles.length ∧ h2 < s.handles.length

/-- **C28** No dangling references: in every state a program reaches from nothing, a statement on
existing handles is defined, except the assignment of a matrix to the object that holds it. -/
theorem C28_safe {ops : List (DState.Op R)} {s : DState R} (hr : (⟨[], []⟩ : DState R).run ops = some s)
    {op : DState.Op R} (hm : Mentions s op)
    (hf : ∀ h h2, op = .assignFrom h h2 → s.handles[h]? ≠ s.handles[h2]?) : (s.step op).1 ≠ .ub := by
  have hwf : ∀ (ops : List (DState.Op R)) (s0 s : DState R), DWf s0 → s0.run ops = some s → DWf s := by
    intro ops
    induction ops with
    | nil => intro s0 s h0 h; unfold DState.run at h; cases h; exact h0
    | cons op ops ih =>
      intro s0 s h0 h
      unfold DState.run at h
      have hstep := step_wf h0 op
      split at h
      · cases h
      · rename_i heq
        rw [heq] at hstep
        exact ih _ _ hstep h
  have hw : DWf s := hwf ops _ s ⟨by simp, by intro n k c h; simp [childAt] at h⟩ hr
  have hnode : ∀ h, h < s.handles.length → ∃ n v, s.node h = .ok (n, v) := by
    intro h hl
    have hlt := hw.handles s.handles[h] (List.getElem_mem hl)
    exact ⟨s.handles[h], s.heap[s.handles[h]], node_eq_ok.2
      ⟨List.getElem?_eq_getElem hl, List.getElem?_eq_getElem hlt⟩⟩
  cases op with
  | empty => unfold DState.step; simp
  | single key v => unfold DState.step; simp
  | copy h => obtain ⟨n, v, e⟩ := hnode h hm; unfold DState.step; simp [e]
  | rebind h h2 =>
    obtain ⟨n, v, e⟩ := hnode h hm.1
    obtain ⟨n2, v2, e2⟩ := hnode h2 hm.2
    unfold DState.step; simp [e, e2]
  | index h key =>
    obtain ⟨n, v, e⟩ := hnode h hm
    rw [(C28_errors e key (.int 0)).2.1]
    repeat (first | split | simp)
  | add h key x =>
    obtain ⟨n, v, e⟩ := hnode h hm
    rw [(C28_errors e key x).1]
    repeat (first | split | simp)
  | addDict h key h2 =>
    obtain ⟨n, v, e⟩ := hnode h hm.1
    obtain ⟨n2, v2, e2⟩ := hnode h2 hm.2
    unfold DState.step
    simp only [e, e2]
    cases v with
    | dict m => simp only []; cases m.find key <;> simp
    | int i => simp
    | real r => simp
    | mat m => simp
  | assign h x =>
    obtain ⟨n, v, e⟩ := hnode h hm
    rw [(C28_errors e "" x).2.2]; simp
  | assignFrom h h2 =>
    obtain ⟨n, v, e⟩ := hnode h hm.1
    obtain ⟨n2, v2, e2⟩ := hnode h2 hm.2
    have hne : n ≠ n2 := by
      intro he
      apply hf h h2 rfl
      rw [(node_eq_ok.1 e).1, (node_eq_ok.1 e2).1, he]
    unfold DState.step
    simp only [e, e2]
    cases v2 with
    | mat m => simp [hne]
    | int i => simp
    | real r => simp
    | dict m => simp

/-- Example: a nested dictionary, a value changed through the handle of the inner one, and errors. -/
def exDict : List (DState.Op Int) :=
  [.empty, .single "x" (.int 1), .addDict 0 "sub" 1, .index 1 "x", .assign 2 (.real 7), .add 0 "sub" (.int 3)]

/-- The state after the program. -/
def exDictState : DState Int := ((⟨[], []⟩ : DState Int).run exDict).getD ⟨[], []⟩
theorem exDict_run : (⟨[], []⟩ : DState Int).run exDict = some exDictState := by decide +kernel
/-- Handle 0 is the outer dictionary, handle 1 the inner one and handle 2 the number in it. -/
theorem exDict_nodes : (exDictState.node 0 = .ok (0, .dict [("sub", 2)]) ∧ exDictState.node 1 = .ok (2, .dict [("x", 1)])) ∧
    exDictState.node 2 = .ok (1, .real 7) := by decide +kernel
example : (exDictState.step (.add 0 "sub" (.int 3))).2 = exDictState :=
  C28_failure _ _ (show (exDictState.step (.add 0 "sub" (.int 3))).1 = .throw .keyError by decide +kernel)
example : (exDictState.step (.add 2 "y" (.int 3))).1 = .throw .valueError :=
  (C28_errors exDict_nodes.2 "y" (.int 3)).1.trans (by decide +kernel)
example : ∃ s', exDictState.step (.add 0 "y" (.int 3)) = (.ok (), s') ∧ childAt s'.heap 0 "y" = some 3 ∧
    scalarAt s'.heap 3 = some (.int 3) := by
  obtain ⟨s', h⟩ : ∃ s', exDictState.step (.add 0 "y" (.int 3)) = (.ok (), s') := ⟨_, by with_unfolding_all rfl⟩
  obtain ⟨h1, h2, -⟩ := C28_add exDict_nodes.1.1 h
  exact ⟨s', h, h1, h2⟩
example : ∃ s', exDictState.step (.addDict 0 "again" 1) = (.ok (), s') ∧ childAt s'.heap 0 "again" = some 2 := by
  obtain ⟨s', h⟩ : ∃ s', exDictState.step (.addDict 0 "again" 1) = (.ok (), s') := ⟨_, by with_unfolding_all rfl⟩
  exact ⟨s', h, (C28_add_dict exDict_nodes.1.1 exDict_nodes.1.2 h).1⟩
/-- `auto e = d["x"]; e = 5` for the inner dictionary. -/
example : ∃ s1 s2, exDictState.step (.index 1 "x") = (.ok (), s1) ∧ s1.heap = exDictState.heap ∧
    s1.step (.assign 3 (.int 5)) = (.ok (), s2) ∧ ∃ c, childAt s2.heap 2 "x" = some c ∧ scalarAt s2.heap c = some (.int 5) := by
  obtain ⟨s1, h1⟩ : ∃ s1, exDictState.step (.index 1 "x") = (.ok (), s1) := ⟨_, by with_unfolding_all rfl⟩
  obtain ⟨s2, h2⟩ : ∃ s2, s1.step (.assign 3 (.int 5)) = (.ok (), s2) := by
    cases h1; exact ⟨_, by with_unfolding_all rfl⟩
  exact ⟨s1, s2, h1, (C28_index exDict_nodes.1.2 h1).1, h2,
    C28_alias exDict_nodes.1.2 h1 h2 (by decide +kernel)⟩
example : exDictState.getReal 2 = .ok 7 := (C28_get exDict_nodes.2).2.1.trans (by decide +kernel)
example : ∃ s', exDictState.step (.assign 2 (.mat [[1, 2]])) = (.ok (), s') ∧ scalarAt s'.heap 1 = some (.mat [[1, 2]]) := by
  obtain ⟨s', h⟩ : ∃ s', exDictState.step (.assign 2 (.mat [[1, 2]])) = (.ok (), s') := ⟨_, by with_unfolding_all rfl⟩
  exact ⟨s', h, (C28_assign exDict_nodes.2 h).1⟩
/-- A further program changes the number, but not what the path leads to. -/
example : ∃ s', exDictState.run [.assign 2 (.int 8), .add 1 "y" (.int 9), .single "z" (.real 3)] = some s' ∧
    follow s'.heap 0 ["sub", "x"] = some ([0, 2], 1) := by
  obtain ⟨s', h⟩ : ∃ s', exDictState.run [.assign 2 (.int 8), .add 1 "y" (.int 9), .single "z" (.real 3)] = some s' :=
    ⟨_, by with_unfolding_all rfl⟩
  refine ⟨s', h, (C28_path h (path := ["sub", "x"]) (n := 0) (c := 1) (ns := [0, 2]) (by decide +kernel) ?_).1⟩
  intro m hm
  have e : exDictState.handles[2]? = some 1 := by decide +kernel
  simp only [List.mem_cons, List.not_mem_nil, or_false] at hm
  rcases hm with rfl | rfl <;> simp [NeverAssigned, assigns, e]
example : (exDictState.step (.index 1 "missing")).1 ≠ .ub :=
  C28_safe exDict_run (by show (1 : Nat) < exDictState.handles.length; decide +kernel) (by intro h h2 e; cases e)

example : ((⟨[], []⟩ : DState Int).run exDict).map
    (fun s => ((follow s.heap 0 ["sub", "x"]).bind (fun p => scalarAt s.heap p.2), s.getReal 2, s.getInt 2)) =
    some (some (.real 7), .ok 7, .throw .valueError) := by decide +kernel

example : ((⟨[], []⟩ : DState Int).run exDict).map (fun s => (s.step (.add 0 "sub" (.int 3))).1) =
    some (.throw .keyError) := by decide +kernel

/-- **Findings.**  Undefined behaviour when a matrix is assigned to the object that holds it; a
dictionary can contain itself, and then assigning to the member replaces the dictionary. -/
theorem C28_cycle :
    ((⟨[], []⟩ : DState Int).run [.single "m" (.mat [[1]]), .index 0 "m"]).map
      (fun s => (s.step (.assignFrom 1 1)).1) = some .ub ∧
    ((⟨[], []⟩ : DState Int).run [.empty, .addDict 0 "me" 0, .index 0 "me", .assign 1 (.int 5)]).map
      (fun s => (s.getInt 0, (s.step (.index 0 "me")).1)) = some (.ok 5, .throw .valueError) := by
  decide +kernel

/-! ## Conversion of python dicts, C28, and item assignment, C57 -/

end Verif.Props

namespace Verif

variable {R : Type}

/-- Specification: lookup in a python dict. -/
def PyItems.get : PyItems R → String → Option (PyVal R)
  | .nil, _ => none
  | .cons key v rest, k => if key = k then some v else rest.get k

/-- Specification: `d[k1][k2]...` in python. -/
def PyVal.look : PyVal R → List String → Option (PyVal R)
  | v, [] => some v
  | .dict es, k :: ks => match es.get k with
      | some v => v.look ks
      | none => none
  | _, _ :: _ => none

mutual
/-- A python value made of nested dicts (distinct keys), integers that fit, floats and matrices. -/
def PyVal.Valid : PyVal R → Prop
  | .int i => -2147483648 ≤ i ∧ i ≤ 2147483647
  | .real _ => True
  | .mat _ => True
  | .dict es => es.Valid
  | .other => False
@[inherit_doc PyVal.Valid]
def PyItems.Valid : PyItems R → Prop
  | .nil => True
  | .cons key v rest => v.Valid ∧ rest.get key = none ∧ rest.Valid
end

end Verif

namespace Verif.Props
open Verif

variable {R : Type}

/-- The tree of nodes below `n` is the python value. -/
inductive Rep (heap : List (DVal R)) : Nat → PyVal R → Prop
  | int {n : Nat} {i : Int} : heap[n]? = some (.int i) → Rep heap n (.int i)
  | real {n : Nat} {r : R} : heap[n]? = some (.real r) → Rep heap n (.real r)
  | mat {n : Nat} {m : List (List R)} : heap[n]? = some (.mat m) → Rep heap n (.mat m)
  | dict {n : Nat} {m : SMap String Nat} {es : PyItems R} : heap[n]? = some (.dict m) →
      (∀ k, m.find k = none ↔ es.get k = none) →
      (∀ k c v, m.find k = some c → es.get k = some v → n < c) →
      (∀ k c v, m.find k = some c → es.get k = some v → Rep heap c v) → Rep heap n (.dict es)

theorem Rep.mono {heap heap' : List (DVal R)} {n : Nat} {v : PyVal R} (h : Rep heap n v) :
    (∀ i, n ≤ i → i < heap.length → heap'[i]? = heap[i]?) → Rep heap' n v := by
  have key : ∀ {n : Nat} {x : DVal R}, heap[n]? = some x →
      (∀ i, n ≤ i → i < heap.length → heap'[i]? = heap[i]?) → heap'[n]? = some x :=
    fun e ha => by rw [ha _ le_rfl (List.getElem?_eq_some_iff.1 e).1, e]
  induction h with
  | int e => intro ha; exact .int (key e ha)
  | real e => intro ha; exact .real (key e ha)
  | mat e => intro ha; exact .mat (key e ha)
  | dict e h1 h2 _ ih =>
    intro ha
    refine .dict (key e ha) h1 h2 ?_
    intro k c v hm hg
    exact ih k c v hm hg (fun i hi hl => ha i (le_trans (le_of_lt (h2 k c v hm hg)) hi) hl)

theorem link_ok {heap heap' : List (DVal R)} {n c : Nat} {key : String}
    (h : Dict.link heap n key c = .ok heap') :
    ∃ m, heap[n]? = some (.dict m) ∧ m.find key = none ∧ heap' = heap.set n (.dict (m.emplace key c)) := by
  unfold Dict.link at h
  split at h
  · rename_i m e
    split at h
    · cases h
    · rename_i hf
      cases h
      exact ⟨m, e, hf, rfl⟩
  · cases h
  · cases h

mutual
theorem convertVal_spec (heap : List (DVal R)) : ∀ (v : PyVal R) {c : Nat} {heap' : List (DVal R)},
    Dict.convertVal heap v = .ok (c, heap') →
    c = heap.length ∧ heap.length < heap'.length ∧ (∀ i < heap.length, heap'[i]? = heap[i]?) ∧ Rep heap' c v
  | .int i, c, heap', h => by
      unfold Dict.convertVal at h
      split at h
      · cases h
        exact ⟨rfl, by simp, fun i hi => List.getElem?_append_left hi, .int (by simp)⟩
      · cases h
  | .real r, c, heap', h => by
      unfold Dict.convertVal at h
      cases h
      exact ⟨rfl, by simp, fun i hi => List.getElem?_append_left hi, .real (by simp)⟩
  | .mat m, c, heap', h => by
      unfold Dict.convertVal at h
      cases h
      exact ⟨rfl, by simp, fun i hi => List.getElem?_append_left hi, .mat (by simp)⟩
  | .other, c, heap', h => by
      unfold Dict.convertVal at h
      cases h
  | .dict es, c, heap', h => by
      unfold Dict.convertVal at h
      obtain ⟨h1, e1, e2⟩ := Res.bind_eq_ok.1 h
      cases e2
      obtain ⟨a, b, m', e, f, g⟩ := convertItems_spec heap.length (heap ++ [.dict []]) es (m := [])
        (by simp) e1
      simp only [List.length_append, List.length_cons, List.length_nil] at a b g
      refine ⟨rfl, by omega, ?_, ?_⟩
      · intro i hi
        rw [b i (by omega) (by omega), List.getElem?_append_left hi]
      · refine .dict e ?_ ?_ ?_
        · intro k
          constructor
          · intro hk
            by_contra hne
            obtain ⟨v, hv⟩ := Option.ne_none_iff_exists'.1 hne
            obtain ⟨_, c, hc, _⟩ := g k v hv
            rw [hk] at hc; cases hc
          · intro hk; rw [f k hk]; rfl
        · intro k c v hm hg
          obtain ⟨_, c', hc', hl, _⟩ := g k v hg
          rw [hm] at hc'; cases hc'
          omega
        · intro k c v hm hg
          obtain ⟨_, c', hc', _, hr⟩ := g k v hg
          rw [hm] at hc'; cases hc'
          exact hr
theorem convertItems_spec (n : Nat) (heap : List (DVal R)) : ∀ (es : PyItems R) {m : SMap String Nat}
    {heap' : List (DVal R)}, heap[n]? = some (.dict m) → Dict.convertItems n heap es = .ok heap' →
    heap.length ≤ heap'.length ∧ (∀ i < heap.length, i ≠ n → heap'[i]? = heap[i]?) ∧
    ∃ m', heap'[n]? = some (.dict m') ∧ (∀ k, es.get k = none → m'.find k = m.find k) ∧
      (∀ k v, es.get k = some v → m.find k = none ∧
        ∃ c, m'.find k = some c ∧ heap.length ≤ c ∧ Rep heap' c v)
  | .nil, m, heap', e, h => by
      unfold Dict.convertItems at h
      cases h
      exact ⟨le_rfl, fun _ _ _ => rfl, m, e, fun _ _ => rfl, fun k v hv => by cases hv⟩
  | .cons key v rest, m, heap', e, h => by
      unfold Dict.convertItems at h
      obtain ⟨⟨c, heap1⟩, e1, h⟩ := Res.bind_eq_ok.1 h
      obtain ⟨heap2, e2, h⟩ := Res.bind_eq_ok.1 h
      have hn : n < heap.length := (List.getElem?_eq_some_iff.1 e).1
      obtain ⟨hc, hl, hf, hr⟩ := convertVal_spec heap v e1
      obtain ⟨m1, g1, g2, g3⟩ := link_ok e2
      rw [hf n hn, e] at g1
      cases g1
      have hn1 : n < heap1.length := by omega
      have e' : heap2[n]? = some (.dict (m.emplace key c)) := by
        rw [g3, List.getElem?_set_self hn1]
      obtain ⟨a, b, m', p, q, r⟩ := convertItems_spec n heap2 rest e' h
      have hl2 : heap2.length = heap1.length := by rw [g3]; simp
      have hkeep : ∀ i < heap1.length, i ≠ n → heap'[i]? = heap1[i]? := by
        intro i hi hne
        rw [b i (by omega) hne, g3, List.getElem?_set_ne (Ne.symm hne)]
      refine ⟨by omega, ?_, m', p, ?_, ?_⟩
      · intro i hi hne
        rw [hkeep i (by omega) hne, hf i hi]
      · intro k hk
        unfold PyItems.get at hk
        split at hk
        · cases hk
        · rename_i hne
          rw [q k hk, find_emplace _ _ _ _ g2, if_neg (Ne.symm hne)]
      · intro k v' hk
        unfold PyItems.get at hk
        split at hk
        · rename_i heq
          subst heq
          cases hk
          refine ⟨g2, c, ?_, by omega, ?_⟩
          · cases hg : rest.get key with
            | none => rw [q key hg, find_emplace _ _ _ _ g2, if_pos rfl]
            | some v2 =>
              have := (r key v2 hg).1
              rw [find_emplace _ _ _ _ g2, if_pos rfl] at this
              cases this
          · exact hr.mono (fun i hi hli => hkeep i hli (by omega))
        · rename_i hne
          obtain ⟨r1, c', r2, r3, r4⟩ := r k v' hk
          rw [find_emplace _ _ _ _ g2, if_neg (Ne.symm hne)] at r1
          exact ⟨r1, c', r2, by omega, r4⟩
end

/-- The scalar a python value is. -/
def pyScalar : PyVal R → Option (DScalar R)
  | .int i => some (.int i)
  | .real r => some (.real r)
  | .mat m => some (.mat m)
  | _ => none

/-- **C28** A dictionary made from a python dict: along every path of keys it leads to the value of the
python dict (and to nothing where the python dict has nothing). -/
theorem C28_python {heap heap' : List (DVal R)} {es : PyItems R} {n : Nat}
    (h : Dict.convert heap es = .ok (n, heap')) (path : List String) :
    ((PyVal.dict es).look path = none → follow heap' n path = none) ∧
    (∀ v, (PyVal.dict es).look path = some v →
      ∃ ns c, follow heap' n path = some (ns, c) ∧ scalarAt heap' c = pyScalar v ∧
        (isDictAt heap' c = true ↔ ∃ es', v = .dict es')) := by
  have hr := (convertVal_spec heap (.dict es) h).2.2.2
  revert hr
  generalize PyVal.dict es = v0
  intro hr
  clear h
  induction path generalizing n v0 with
  | nil =>
    unfold PyVal.look follow
    refine ⟨fun h => (by cases h), ?_⟩
    intro v hv
    cases hv
    refine ⟨[], n, rfl, ?_⟩
    unfold scalarAt isDictAt
    cases hr with
    | int e => rw [e]; simp [pyScalar]
    | real e => rw [e]; simp [pyScalar]
    | mat e => rw [e]; simp [pyScalar]
    | dict e _ _ _ => rw [e]; simp [pyScalar]
  | cons k ks ih =>
    cases hr with
    | int e => simp [PyVal.look, follow, childAt, e]
    | real e => simp [PyVal.look, follow, childAt, e]
    | mat e => simp [PyVal.look, follow, childAt, e]
    | dict e h1 h2 h3 =>
      rename_i m es0
      unfold PyVal.look follow childAt
      simp only [e]
      cases hg : es0.get k with
      | none => simp [(h1 k).2 hg]
      | some v1 =>
        cases hm : m.find k with
        | none => rw [(h1 k).1 hm] at hg; cases hg
        | some c =>
          simp only []
          obtain ⟨i1, i2⟩ := ih (n := c) (v0 := v1) (h3 k c v1 hm hg)
          refine ⟨fun h => by rw [i1 h]; rfl, ?_⟩
          intro v hv
          obtain ⟨ns, c', j1, j2, j3⟩ := i2 v hv
          exact ⟨n :: ns, c', by rw [j1]; rfl, j2, j3⟩

mutual
theorem convertVal_total (heap : List (DVal R)) : ∀ (v : PyVal R), v.Valid →
    ∃ r, Dict.convertVal heap v = .ok r
  | .int i, h => by unfold Dict.convertVal; exact ⟨_, if_pos h⟩
  | .real r, _ => by unfold Dict.convertVal; exact ⟨_, rfl⟩
  | .mat m, _ => by unfold Dict.convertVal; exact ⟨_, rfl⟩
  | .other, h => h.elim
  | .dict es, h => by
      obtain ⟨h', e⟩ := convertItems_total heap.length (heap ++ [.dict []]) es (m := []) (by simp)
        (fun _ _ => rfl) h
      unfold Dict.convertVal
      rw [e]
      exact ⟨_, rfl⟩
theorem convertItems_total (n : Nat) (heap : List (DVal R)) : ∀ (es : PyItems R) {m : SMap String Nat},
    heap[n]? = some (.dict m) → (∀ k, es.get k ≠ none → m.find k = none) → es.Valid →
    ∃ r, Dict.convertItems n heap es = .ok r
  | .nil, m, _, _, _ => by unfold Dict.convertItems; exact ⟨_, rfl⟩
  | .cons key v rest, m, e, hk, hv => by
      obtain ⟨v1, v2, v3⟩ := hv
      obtain ⟨⟨c, heap1⟩, e1⟩ := convertVal_total heap v v1
      have hn : n < heap.length := (List.getElem?_eq_some_iff.1 e).1
      obtain ⟨hc, hl, hf, _⟩ := convertVal_spec heap v e1
      have hkey : m.find key = none := hk key (by unfold PyItems.get; simp)
      have e2 : Dict.link heap1 n key c = .ok (heap1.set n (.dict (m.emplace key c))) := by
        unfold Dict.link
        rw [hf n hn, e]
        simp only []
        rw [hkey]
      obtain ⟨r, hr⟩ := convertItems_total n (heap1.set n (.dict (m.emplace key c))) rest
        (m := m.emplace key c) (List.getElem?_set_self (by omega)) (by
          intro k hk'
          have hne : k ≠ key := by rintro rfl; exact hk' v2
          rw [find_emplace _ _ _ _ hkey, if_neg hne]
          apply hk
          unfold PyItems.get
          rwa [if_neg (Ne.symm hne)]) v3
      refine ⟨r, ?_⟩
      unfold Dict.convertItems
      rw [e1, Res.ok_bind]
      simp only []
      rw [e2, Res.ok_bind, hr]
end

/-- **C28** Every python dict of the documented kind is converted. -/
theorem C28_python_total (heap : List (DVal R)) {es : PyItems R} (h : es.Valid) :
    ∃ n heap', Dict.convert heap es = .ok (n, heap') := by
  obtain ⟨⟨n, h'⟩, e⟩ := convertVal_total heap (.dict es) h
  exact ⟨n, h', e⟩

mutual
theorem convertVal_valid (heap : List (DVal R)) : ∀ (v : PyVal R) {r : Nat × List (DVal R)},
    Dict.convertVal heap v = .ok r → v.Valid
  | .int i, r, h => by
      unfold Dict.convertVal at h
      split at h
      · assumption
      · cases h
  | .real _, _, _ => trivial
  | .mat _, _, _ => trivial
  | .other, _, h => by unfold Dict.convertVal at h; cases h
  | .dict es, r, h => by
      unfold Dict.convertVal at h
      obtain ⟨h1, e1, -⟩ := Res.bind_eq_ok.1 h
      exact convertItems_valid heap.length (heap ++ [.dict []]) es (m := []) (by simp) e1
theorem convertItems_valid (n : Nat) (heap : List (DVal R)) : ∀ (es : PyItems R) {m : SMap String Nat}
    {heap' : List (DVal R)}, heap[n]? = some (.dict m) → Dict.convertItems n heap es = .ok heap' → es.Valid
  | .nil, _, _, _, _ => trivial
  | .cons key v rest, m, heap', e, h => by
      unfold Dict.convertItems at h
      obtain ⟨⟨c, heap1⟩, e1, h⟩ := Res.bind_eq_ok.1 h
      obtain ⟨heap2, e2, h⟩ := Res.bind_eq_ok.1 h
      have hn : n < heap.length := (List.getElem?_eq_some_iff.1 e).1
      obtain ⟨hc, hl, hf, -⟩ := convertVal_spec heap v e1
      obtain ⟨m1, g1, g2, g3⟩ := link_ok e2
      have e' : heap2[n]? = some (.dict (m1.emplace key c)) := by
        rw [g3, List.getElem?_set_self (by omega)]
      refine ⟨convertVal_valid heap v e1, ?_, convertItems_valid n heap2 rest e' h⟩
      obtain ⟨-, -, m', -, -, r⟩ := convertItems_spec n heap2 rest e' h
      cases hg : rest.get key with
      | none => rfl
      | some v2 =>
        have := (r key v2 hg).1
        rw [find_emplace _ _ _ _ g2, if_pos rfl] at this
        cases this
end

/-- **C28** Exactly the python dicts of the documented kind are converted: at any depth, integers that do
not fit into an `int` and values of other types are rejected. -/
theorem C28_python_iff (heap : List (DVal R)) (es : PyItems R) :
    (∃ n heap', Dict.convert heap es = .ok (n, heap')) ↔ es.Valid :=
  ⟨fun ⟨_, _, h⟩ => convertVal_valid heap (.dict es) h, C28_python_total heap⟩

/-- A dict with 2147483648 two levels down is rejected. -/
example : ¬ ∃ n heap', Dict.convert ([] : List (DVal Int))
    (.cons "a" (.dict (.cons "b" (.int 2147483648) .nil)) .nil) = .ok (n, heap') := by
  rw [C28_python_iff]
  simp [PyItems.Valid, PyVal.Valid]

/-- Example: a nested python dict. -/
def exPy : PyItems Int := .cons "a" (.int 3) (.cons "sub" (.dict (.cons "b" (.real 4) .nil)) .nil)

example : ∃ n heap', Dict.convert ([] : List (DVal Int)) exPy = .ok (n, heap') :=
  C28_python_total [] (by simp [exPy, PyItems.Valid, PyVal.Valid, PyItems.get])

example : exPy.Valid := by simp [exPy, PyItems.Valid, PyVal.Valid, PyItems.get]

example : (match Dict.convert ([] : List (DVal Int)) exPy with
    | .ok (n, heap) => (follow heap n ["sub", "b"]).bind (fun p => scalarAt heap p.2)
    | _ => none) = some (.real 4) := by decide +kernel

/-- Full statement of C57: after `d[key] = v` in python the value under `key` is `v`, for every value of
a supported type, whether or not the key was there before. -/
def C57_statement : Prop :=
  ∀ (heap : List (DVal Int)) (n : Nat) (m : SMap String Nat) (key : String) (v : PyVal Int),
    heap[n]? = some (.dict m) → v.Valid →
    ∃ heap' m' c, Dict.pySet heap n key v = (.ok (), heap') ∧ heap'[n]? = some (.dict m') ∧
      m'.find key = some c ∧ Rep heap' c v

/-- **C57** is false: assigning a dict has no effect (it is stored in a temporary), and assigning to a new
key raises an exception. -/
theorem C57_false : ¬ C57_statement := by
  intro h
  obtain ⟨heap', m', c, h1, h2, h3, h4⟩ := h [.dict [("k", 1)], .int 3] 0 [("k", 1)] "k" (.dict .nil) rfl trivial
  have e : heap' = [.dict [("k", 1)], .int 3, .dict []] := (congrArg Prod.snd h1).symm.trans (by decide +kernel)
  subst e
  cases h2
  have e3 : c = 1 := by
    have : SMap.find [("k", 1)] "k" = some 1 := by decide +kernel
    rw [this] at h3; cases h3; rfl
  subst e3
  cases h4 with
  | dict e _ _ _ => cases e

/-- **C57** The silent loss in general: assigning a dict leaves everything below the dictionary as it was. -/
theorem C57_dict_ignored {heap heap' : List (DVal R)} {n : Nat} {key : String} {es : PyItems R}
    (h : Dict.pySet heap n key (.dict es) = (.ok (), heap')) :
    ∀ i < heap.length, heap'[i]? = heap[i]? := by
  unfold Dict.pySet at h
  simp only [] at h
  cases hc : Dict.convert heap es with
  | throw e => rw [hc] at h; cases h
  | ub => rw [hc] at h; cases h
  | ok r =>
    obtain ⟨c, h1⟩ := r
    rw [hc] at h
    simp only [] at h
    have hs := convertVal_spec heap (.dict es) hc
    have : h1 = heap' := by
      revert h
      split <;> intro h <;> cases h
      rfl
    subst this
    exact hs.2.2.1

example : ∃ heap', Dict.pySet ([.dict [("k", 1)], .int 3] : List (DVal Int)) 0 "k" (.dict (.cons "b" (.int 4) .nil)) =
    (.ok (), heap') ∧ ∀ i < 2, heap'[i]? = ([.dict [("k", 1)], .int 3] : List (DVal Int))[i]? := by
  obtain ⟨heap', h⟩ : ∃ heap', Dict.pySet ([.dict [("k", 1)], .int 3] : List (DVal Int)) 0 "k"
    (.dict (.cons "b" (.int 4) .nil)) = (.ok (), heap') := ⟨_, by with_unfolding_all rfl⟩
  exact ⟨heap', h, C57_dict_ignored h⟩

/-- **C57** for numbers and matrices under an existing key (that is not the dictionary itself): the value is
stored, `__getitem__` returns it, and nothing else changes.  Missing for the full statement: dicts as values
and new keys (`C57_false`). -/
theorem C57_scalar_partial {heap : List (DVal R)} {n c : Nat} {m : SMap String Nat} {key : String}
    {v : PyVal R} {d : DScalar R} (hn : heap[n]? = some (.dict m)) (hk : m.find key = some c)
    (hc : c < heap.length) (hne : c ≠ n) (hv : v.Valid) (hd : pyScalar v = some d) :
    Dict.pySet heap n key v = (.ok (), heap.set c d.val) ∧
    Dict.pyGet (heap.set c d.val) n key = .ok v := by
  have hg : (heap.set c d.val)[n]? = some (.dict m) := by rw [List.getElem?_set_ne hne, hn]
  unfold Dict.pySet Dict.pyGet
  simp only [hn, hk, hg, List.getElem?_set_self hc]
  cases v with
  | int i => cases hd; exact ⟨if_pos hv, rfl⟩
  | real r => cases hd; exact ⟨rfl, rfl⟩
  | mat a => cases hd; exact ⟨rfl, rfl⟩
  | dict es => cases hd
  | other => cases hd

example : Dict.pySet ([.dict [("k", 1)], .int 3] : List (DVal Int)) 0 "k" (.real 8) = (.ok (), [.dict [("k", 1)], .real 8]) ∧
    Dict.pyGet ([.dict [("k", 1)], .real 8] : List (DVal Int)) 0 "k" = .ok (.real 8) :=
  C57_scalar_partial (heap := [.dict [("k", 1)], .int 3]) (n := 0) (c := 1) (d := .real 8) rfl (by decide +kernel)
    (by decide) (by decide) trivial rfl

/-- **C57** A missing key cannot be assigned. -/
theorem C57_new_key {heap : List (DVal R)} {n : Nat} {m : SMap String Nat} {key : String} {v : PyVal R}
    (hn : heap[n]? = some (.dict m)) (hk : m.find key = none) (hv : v.Valid) :
    (Dict.pySet heap n key v).1 = .throw .outOfRange := by
  unfold Dict.pySet
  simp only [hn, hk]
  cases v with
  | int i => unfold PyVal.Valid at hv; simp only [if_pos hv]
  | real r => rfl
  | mat a => rfl
  | dict es =>
    obtain ⟨c, h', e⟩ := C28_python_total heap (es := es) hv
    simp only [e]
  | other => exact hv.elim

example : (Dict.pySet ([.dict [("k", 1)], .int 3] : List (DVal Int)) 0 "new" (.real 8)).1 = .throw .outOfRange :=
  C57_new_key (heap := [.dict [("k", 1)], .int 3]) (n := 0) rfl (by decide +kernel) trivial

/-- **C57** A value that is not of a supported type, or an integer that does not fit, is never assigned:
whatever the key, the call fails and the heap stays as it was. -/
theorem C57_rejected {heap : List (DVal R)} {n : Nat} {key : String} {v : PyVal R} (hv : ¬ v.Valid) :
    (Dict.pySet heap n key v).1 ≠ .ok () ∧ (Dict.pySet heap n key v).2 = heap := by
  unfold Dict.pySet
  cases v with
  | int i => unfold PyVal.Valid at hv; simp [if_neg hv]
  | real r => exact absurd trivial hv
  | mat a => exact absurd trivial hv
  | dict es =>
    cases hc : Dict.convert heap es with
    | ok r => exact absurd ((C28_python_iff heap es).1 ⟨r.1, r.2, hc⟩) hv
    | throw e => simp [hc]
    | ub => simp [hc]
  | other => simp

example : Dict.pySet ([.dict [("k", 1)], .int 3] : List (DVal Int)) 0 "k" (.int (-2147483649)) =
    (.throw .runtimeError, [.dict [("k", 1)], .int 3]) := by decide +kernel

/-- **C57** `__getitem__` on a dictionary made from a python dict returns the entry, unless it is a dict. -/
theorem C57_get {heap heap' : List (DVal R)} {es : PyItems R} {n : Nat}
    (h : Dict.convert heap es = .ok (n, heap')) (key : String) :
    Dict.pyGet heap' n key = match es.get key with
      | none => .throw .outOfRange
      | some (.dict _) => .throw .dictionaryError
      | some v => .ok v := by
  obtain ⟨_, _, _, hr⟩ := convertVal_spec heap (.dict es) h
  cases hr with
  | dict e h1 h2 h3 =>
    rename_i m
    unfold Dict.pyGet
    rw [e]
    simp only []
    cases hg : es.get key with
    | none => rw [(h1 key).2 hg]
    | some v =>
      cases hm : m.find key with
      | none => rw [(h1 key).1 hm] at hg; cases hg
      | some c =>
        simp only []
        cases h3 key c v hm hg with
        | int e => rw [e]
        | real e => rw [e]
        | mat e => rw [e]
        | dict e _ _ _ => rw [e]

example : (Dict.pySet ([.dict [("k", 1)], .int 3] : List (DVal Int)) 0 "k" (.real 8)).2 =
    [.dict [("k", 1)], .real 8] := by decide +kernel

end Verif.Props
