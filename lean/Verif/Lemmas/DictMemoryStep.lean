import Verif.Lemmas.DictMemory
import Verif.Props.Dictionary
/-
Statements on counted dictionaries: they are defined, keep the invariant and do what they do without destruction.
-/
namespace Verif
open Verif.Props
namespace MState
variable {R : Type}

/-- The counts are right. -/
def Ok (s : MState R) : Prop := Inv s.heap (s.handles.flatMap MHandle.target)

/-- The object `h` is alive. -/
def Alive (s : MState R) (h : Nat) : Prop := ∃ p, s.handles[h]? = some p ∧ p ≠ .gone

/-- The object `h` is alive and has not been moved from. -/
def Points (s : MState R) (h : Nat) : Prop := ∃ n, s.handles[h]? = some (.ref n)

/-- The statement uses living objects only, and no matrix is assigned to the value that holds it. -/
def Uses (s : MState R) : Op R → Prop
  | .op .empty | .op (.single _ _) => True
  | .op (.copy h) | .move h | .drop h => s.Alive h
  | .op (.rebind h h2) => s.Alive h ∧ s.Alive h2
  | .op (.index h _) | .op (.add h _ _) | .op (.assign h _) => s.Points h
  | .op (.addDict h _ h2) => s.Points h ∧ s.Points h2
  | .op (.assignFrom h h2) => s.Points h ∧ s.Points h2 ∧
      ∀ n m, s.handles[h]? = some (.ref n) → s.handles[h2]? = some (.ref n) → ¬ HasVal s.heap n (.mat m)

/-- The statement without destruction. -/
def Op.plain : Op R → Option (DState.Op R)
  | .op o => some o
  | .move h => some (.copy h)
  | .drop _ => none

/-- The state `d` of the model without destruction has the values that exist, and the same objects. -/
structure Sim (s : MState R) (d : DState R) : Prop where
  wf : DWf d
  len : s.heap.length = d.heap.length
  hlen : s.handles.length = d.handles.length
  val : ∀ (n : Nat) (v : DVal R), HasVal s.heap n v → d.heap[n]? = some v
  handle : ∀ (h n : Nat), s.handles[h]? = some (.ref n) → d.handles[h]? = some n

theorem Ok.handle {s : MState R} (hs : s.Ok) {h n : Nat} (hh : s.handles[h]? = some (.ref n)) :
    ∃ v c, s.heap[n]? = some ⟨some v, c + 1⟩ :=
  Inv.live hs (Or.inl (List.mem_flatMap.2 ⟨_, List.mem_of_getElem? hh, by simp [MHandle.target]⟩))

theorem Ok.kid {s : MState R} (hs : s.Ok) {n k : Nat} {v : DVal R} (hv : HasVal s.heap n v) (hk : k ∈ v.kids) :
    ∃ v c, s.heap[k]? = some ⟨some v, c + 1⟩ := by
  obtain ⟨c, hc⟩ := hv
  exact Inv.live hs (Or.inr (List.mem_flatMap.2 ⟨_, List.mem_of_getElem? hc, by simpa [MNode.kids] using hk⟩))

theorem finish_spec (s : MState R) {heap : List (MNode R)} {ps : List Nat} {handles : List MHandle}
    (hi : Inv heap (handles.flatMap MHandle.target ++ ps)) :
    ∃ s', s.finish heap ps handles = (.ok (), s') ∧ s'.Ok ∧ s'.handles = handles ∧ s'.heap.length = heap.length ∧
      (∀ n v, HasVal s'.heap n v → HasVal heap n v) := by
  obtain ⟨heap', h1, h2, h3, h4⟩ := release_spec _ _ _ _ hi (Nat.le_refl _)
  exact ⟨⟨heap', handles⟩, by simp [finish, h1], h2, rfl, h3, h4⟩

theorem hasVal_set {heap : List (MNode R)} {n m : Nat} {w : DVal R} {nd : MNode R} (h : HasVal (heap.set n nd) m w) :
    (m = n ∧ nd.val = some w) ∨ (m ≠ n ∧ HasVal heap m w) := by
  obtain ⟨c, hc⟩ := h
  rw [List.getElem?_set] at hc
  split at hc
  · rename_i e
    subst e
    split at hc
    · simp only [Option.some.injEq] at hc
      subst hc
      exact Or.inl ⟨rfl, rfl⟩
    · cases hc
  · rename_i e
    exact Or.inr ⟨fun h => e h.symm, c, hc⟩

theorem hasVal_count {heap : List (MNode R)} {n m : Nat} {v w : DVal R} {c c' : Nat} (hn : heap[n]? = some ⟨some v, c⟩)
    (h : HasVal (heap.set n ⟨some v, c'⟩) m w) : HasVal heap m w := by
  rcases hasVal_set h with ⟨rfl, e⟩ | ⟨-, h⟩
  · have e := Option.some.inj e
    subst e
    exact ⟨c, hn⟩
  · exact h

theorem hasVal_append {heap : List (MNode R)} {n : Nat} {w : DVal R} {nds : List (MNode R)} (h : HasVal (heap ++ nds) n w) :
    (n < heap.length ∧ HasVal heap n w) ∨ (heap.length ≤ n ∧ HasVal nds (n - heap.length) w) := by
  obtain ⟨c, hc⟩ := h
  rw [List.getElem?_append] at hc
  split at hc
  · rename_i e; exact Or.inl ⟨e, c, hc⟩
  · rename_i e; exact Or.inr ⟨by omega, c, hc⟩

theorem kids_emplace {m : SMap String Nat} {key : String} (hf : m.find key = none) (c k : Nat) :
    ((DVal.dict (m.emplace key c) : DVal R).kids).count k = ((DVal.dict m : DVal R).kids).count k + if c = k then 1 else 0 := by
  have key' : ∀ m : SMap String Nat, m.find key = none →
      ((m.insert key c).map (·.2)).count k = (m.map (·.2)).count k + if c = k then 1 else 0 := by
    intro m
    induction m with
    | nil => intro _; simp [SMap.insert, List.count_cons]
    | cons e m ih =>
      intro hf
      obtain ⟨k', v'⟩ := e
      rw [SMap.find_cons] at hf
      split at hf
      · cases hf
      · rename_i hne
        unfold SMap.insert
        split
        · simp [List.count_cons]
        · rw [if_neg (fun e => hne e.symm)]
          have := ih hf
          simp only [List.map_cons, List.count_cons, this]
          omega
  simp only [DVal.kids, SMap.emplace, hf]
  exact key' m hf

theorem mem_kids_emplace {m : SMap String Nat} {key : String} (hf : m.find key = none) {c k : Nat}
    (h : k ∈ (DVal.dict (m.emplace key c) : DVal R).kids) : k = c ∨ k ∈ (DVal.dict m : DVal R).kids := by
  have h1 := List.count_pos_iff.2 h
  rw [kids_emplace hf] at h1
  by_cases e : c = k
  · exact Or.inl e.symm
  · rw [if_neg e, Nat.add_zero] at h1
    exact Or.inr (List.count_pos_iff.1 h1)

theorem scalar_kids (v : DScalar R) : v.val.kids = [] := by cases v <;> rfl

theorem Ok.node {s : MState R} (hs : s.Ok) {h n : Nat} (hh : s.handles[h]? = some (.ref n)) :
    ∃ v c, s.heap[n]? = some ⟨some v, c + 1⟩ ∧ s.node h = .ok (n, v, c + 1) := by
  obtain ⟨v, c, hn⟩ := hs.handle hh
  exact ⟨v, c, hn, by simp [MState.node, hh, hn]⟩

theorem node_not {s : MState R} {h : Nat} (hh : ¬ s.Points h) : s.node h = .ub := by
  unfold MState.node
  split
  · rename_i n e; exact absurd ⟨n, e⟩ hh
  · rfl

theorem Sim.node {s : MState R} {d : DState R} (hd : Sim s d) {h n : Nat} {v : DVal R} {c : Nat}
    (hh : s.handles[h]? = some (.ref n)) (hn : s.heap[n]? = some ⟨some v, c⟩) : d.node h = .ok (n, v) :=
  node_eq_ok.2 ⟨hd.handle h n hh, hd.val n v ⟨c, hn⟩⟩

theorem Sim.any {s : MState R} {d : DState R} (hd : Sim s d) {h : Nat} {p : MHandle} (hh : s.handles[h]? = some p) :
    ∃ n v, d.node h = .ok (n, v) := by
  have hl : h < d.handles.length := by rw [← hd.hlen]; exact (List.getElem?_eq_some_iff.1 hh).1
  have hlt := hd.wf.handles d.handles[h] (List.getElem_mem hl)
  exact ⟨d.handles[h], d.heap[d.handles[h]], node_eq_ok.2 ⟨List.getElem?_eq_getElem hl, List.getElem?_eq_getElem hlt⟩⟩

/-- The value at `a` exists and has an entry that points to `b`. -/
def Refers (heap : List (MNode R)) (a b : Nat) : Prop := ∃ v, HasVal heap a v ∧ b ∈ v.kids

/-- The entries that a statement makes. -/
def NewEntry (s : MState R) : Op R → Nat → Nat → Prop
  | .op (.single _ _), a, b => a = s.heap.length + 1 ∧ b = s.heap.length
  | .op (.add h _ _), a, b => s.handles[h]? = some (.ref a) ∧ b = s.heap.length
  | .op (.addDict h _ h2), a, b => s.handles[h]? = some (.ref a) ∧ s.handles[h2]? = some (.ref b)
  | _, _, _ => False

theorem Refers.of {heap heap' : List (MNode R)} (h : ∀ n v, HasVal heap' n v → HasVal heap n v) {a b : Nat}
    (hr : Refers heap' a b) : Refers heap a b := by
  obtain ⟨v, hv, hb⟩ := hr
  exact ⟨v, h a v hv, hb⟩

/-- What a statement does. -/
def StepOk (s : MState R) (op : Op R) : Prop :=
  ∃ r s', s.step op = (r, s') ∧ r ≠ .ub ∧ s'.Ok ∧ (∀ a b, Refers s'.heap a b → Refers s.heap a b ∨ NewEntry s op a b) ∧
    ∀ d, Sim s d → match op.plain with
      | none => Sim s' d
      | some o => (d.step o).1 = r ∧ Sim s' (d.step o).2

theorem getElem?_push {α : Type} {l : List α} {a b : α} {i : Nat} (h : (l ++ [a])[i]? = some b) :
    l[i]? = some b ∨ (i = l.length ∧ a = b) := by
  rw [List.getElem?_append] at h
  split at h
  · exact Or.inl h
  · rename_i e
    have : i - l.length = 0 := by
      by_contra hne
      rw [List.getElem?_eq_none (by simp; omega)] at h
      cases h
    rw [this] at h
    simp only [List.getElem?_cons_zero, Option.some.injEq] at h
    exact Or.inr ⟨by omega, h⟩

theorem throw_ok {s : MState R} (hs : s.Ok) {o : DState.Op R} {e : Err} (h : s.step (.op o) = (.throw e, s))
    (hd : ∀ d, Sim s d → d.step o = (.throw e, d)) : StepOk s (.op o) :=
  ⟨_, _, h, by simp, hs, fun _ _ hr => Or.inl hr, fun d hsim => by simp only [Op.plain]; rw [hd d hsim]; exact ⟨rfl, hsim⟩⟩

theorem step_empty {s : MState R} (hs : s.Ok) : StepOk s (.op .empty) := by
  refine ⟨_, _, rfl, by simp, ?_, ?_, ?_⟩
  · have := Inv.push (v := .dict []) (heap := s.heap) (ext := s.handles.flatMap MHandle.target) hs
    refine this.congr ?_
    intro n
    simp [MHandle.target, List.count_append, List.count_cons]
  · rintro a b ⟨v, hv, hb⟩
    rcases hasVal_append hv with ⟨-, hv⟩ | ⟨-, c, hc⟩
    · exact Or.inl ⟨v, hv, hb⟩
    · have := List.mem_of_getElem? hc
      simp only [List.mem_singleton, MNode.mk.injEq, Option.some.injEq] at this
      rw [this.1] at hb
      simp [DVal.kids] at hb
  · intro d hd
    refine ⟨rfl, step_wf hd.wf .empty, by simp [DState.step, hd.len], by simp [DState.step, hd.hlen], ?_, ?_⟩
    · intro n v h
      simp only [DState.step]
      rcases hasVal_append h with ⟨hl, h⟩ | ⟨hl, c, hc⟩
      · rw [List.getElem?_append_left (by rw [← hd.len]; exact hl)]; exact hd.val n v h
      · rw [List.getElem?_append_right (by rw [← hd.len]; exact hl), ← hd.len]
        cases hk : n - s.heap.length with
        | zero => rw [hk] at hc; simp at hc; simp [hc.1]
        | succ k => rw [hk] at hc; simp at hc
    · intro h n hh
      simp only [DState.step]
      rcases getElem?_push hh with hh | ⟨rfl, e⟩
      · have := hd.handle h n hh
        rw [List.getElem?_append_left (List.getElem?_eq_some_iff.1 this).1]; exact this
      · simp only [MHandle.ref.injEq] at e
        simp [hd.hlen, ← e, hd.len]

theorem step_single {s : MState R} (hs : s.Ok) (key : String) (v : DScalar R) : StepOk s (.op (.single key v)) := by
  refine ⟨_, _, rfl, by simp, ?_, ?_, ?_⟩
  · have h1 := Inv.push (v := v.val) (heap := s.heap) (ext := s.handles.flatMap MHandle.target) (by rw [scalar_kids]; exact hs)
    have h2 := Inv.push (v := .dict [(key, s.heap.length)]) (heap := s.heap ++ [⟨some v.val, 1⟩])
      (ext := s.handles.flatMap MHandle.target) h1
    simp only [List.append_assoc, List.cons_append, List.nil_append] at h2
    refine h2.congr ?_
    intro n
    simp [MHandle.target, List.count_append, List.count_cons]
  · rintro a b ⟨w, hv, hb⟩
    rcases hasVal_append hv with ⟨-, hv⟩ | ⟨hl, c, hc⟩
    · exact Or.inl ⟨w, hv, hb⟩
    · rcases hk : a - s.heap.length with _ | _ | k
      · rw [hk] at hc
        simp at hc
        rw [← hc.1, scalar_kids] at hb
        cases hb
      · rw [hk] at hc
        simp at hc
        rw [← hc.1] at hb
        simp [DVal.kids] at hb
        exact Or.inr ⟨by omega, hb⟩
      · rw [hk] at hc; simp at hc
  · intro d hd
    refine ⟨rfl, step_wf hd.wf (.single key v), by simp [DState.step, hd.len], by simp [DState.step, hd.hlen], ?_, ?_⟩
    · intro n w h
      simp only [DState.step]
      rcases hasVal_append h with ⟨hl, h⟩ | ⟨hl, c, hc⟩
      · rw [List.getElem?_append_left (by rw [← hd.len]; exact hl)]; exact hd.val n w h
      · rw [List.getElem?_append_right (by rw [← hd.len]; exact hl), ← hd.len]
        rcases hk : n - s.heap.length with _ | _ | k
        · rw [hk] at hc; simp at hc; simp [hc.1]
        · rw [hk] at hc; simp at hc; simp [hc.1]
        · rw [hk] at hc; simp at hc
    · intro h n hh
      simp only [DState.step]
      rcases getElem?_push hh with hh | ⟨rfl, e⟩
      · have := hd.handle h n hh
        rw [List.getElem?_append_left (List.getElem?_eq_some_iff.1 this).1]; exact this
      · simp only [MHandle.ref.injEq] at e
        simp [hd.hlen, ← e, hd.len]

/-- A new pointer for a new object. -/
theorem push_handle {s : MState R} (hs : s.Ok) {n : Nat} {v : DVal R} {c : Nat} (hn : s.heap[n]? = some ⟨some v, c⟩) :
    s.withNew s.heap n (fun heap => (.ok (), ⟨heap, s.handles ++ [.ref n]⟩)) =
      (.ok (), ⟨s.heap.set n ⟨some v, c + 1⟩, s.handles ++ [.ref n]⟩) ∧
    (⟨s.heap.set n ⟨some v, c + 1⟩, s.handles ++ [.ref n]⟩ : MState R).Ok ∧
    ∀ d, Sim s d → DWf (⟨d.heap, d.handles ++ [n]⟩ : DState R) →
      Sim ⟨s.heap.set n ⟨some v, c + 1⟩, s.handles ++ [.ref n]⟩ ⟨d.heap, d.handles ++ [n]⟩ := by
  obtain ⟨h1, h2⟩ := acquire_spec hs hn
  refine ⟨by simp [withNew, h1], h2.congr ?_, ?_⟩
  · intro m; simp [MHandle.target, List.count_append, List.count_cons]
  · intro d hd hw
    refine ⟨hw, by simp [hd.len], by simp [hd.hlen], fun m w h => hd.val m w (hasVal_count hn h), ?_⟩
    intro h m hh
    rcases getElem?_push hh with hh | ⟨rfl, e⟩
    · have := hd.handle h m hh
      simp only
      rw [List.getElem?_append_left (List.getElem?_eq_some_iff.1 this).1]; exact this
    · simp only [MHandle.ref.injEq] at e
      simp [hd.hlen, e]

theorem step_copy {s : MState R} (hs : s.Ok) {h : Nat} (hu : s.Alive h) : StepOk s (.op (.copy h)) := by
  obtain ⟨p, hp, hg⟩ := hu
  cases p with
  | gone => exact absurd rfl hg
  | null =>
    refine ⟨.ok (), ⟨s.heap, s.handles ++ [.null]⟩, by simp [step, hp], by simp, ?_, fun _ _ h => Or.inl h, ?_⟩
    · exact Inv.congr hs (by intro n; simp [MHandle.target])
    · intro d hd
      obtain ⟨n, v, hn⟩ := hd.any hp
      have hw := step_wf hd.wf (.copy h)
      simp only [Op.plain]
      simp only [DState.step, hn] at hw ⊢
      refine ⟨trivial, hw, hd.len, by simp [hd.hlen], hd.val, ?_⟩
      intro k m hk
      rcases getElem?_push hk with hk | ⟨_, e⟩
      · have := hd.handle k m hk
        simp only
        rw [List.getElem?_append_left (List.getElem?_eq_some_iff.1 this).1]; exact this
      · cases e
  | ref n =>
    obtain ⟨v, c, hn⟩ := hs.handle hp
    obtain ⟨h1, h2, h3⟩ := push_handle hs hn
    refine ⟨.ok (), _, by simp only [step, hp]; exact h1, by simp, h2,
      fun _ _ h => Or.inl (h.of fun _ _ => hasVal_count hn), ?_⟩
    intro d hd
    have hw := step_wf hd.wf (.copy h)
    simp only [Op.plain]
    simp only [DState.step, hd.node hp hn] at hw ⊢
    exact ⟨trivial, h3 d hd hw⟩

theorem step_index {s : MState R} (hs : s.Ok) {h : Nat} {key : String} (hu : s.Points h) : StepOk s (.op (.index h key)) := by
  obtain ⟨n, hp⟩ := hu
  obtain ⟨v, c, hn, hnode⟩ := hs.node hp
  cases v with
  | dict m =>
    cases hf : m.find key with
    | none => exact throw_ok (e := .outOfRange) hs (by simp [step, hnode, hf]) (fun d hd => by simp [DState.step, hd.node hp hn, hf])
    | some k =>
      have hk : k ∈ (DVal.dict m : DVal R).kids := List.mem_map.2 ⟨_, SMap.mem_of_find hf, rfl⟩
      obtain ⟨w, c', hkk⟩ := hs.kid ⟨_, hn⟩ hk
      obtain ⟨h1, h2, h3⟩ := push_handle hs hkk
      refine ⟨.ok (), _, by simp only [step, hnode, hf]; exact h1, by simp, h2,
        fun _ _ h => Or.inl (h.of fun _ _ => hasVal_count hkk), ?_⟩
      intro d hd
      have hw := step_wf hd.wf (.index h key)
      simp only [Op.plain]
      simp only [DState.step, hd.node hp hn, hf] at hw ⊢
      exact ⟨trivial, h3 d hd hw⟩
  | int i => exact throw_ok (e := .valueError) hs (by simp [step, hnode]) (fun d hd => by simp [DState.step, hd.node hp hn])
  | real r => exact throw_ok (e := .valueError) hs (by simp [step, hnode]) (fun d hd => by simp [DState.step, hd.node hp hn])
  | mat m => exact throw_ok (e := .valueError) hs (by simp [step, hnode]) (fun d hd => by simp [DState.step, hd.node hp hn])

theorem step_add {s : MState R} (hs : s.Ok) {h : Nat} {key : String} {v : DScalar R} (hu : s.Points h) :
    StepOk s (.op (.add h key v)) := by
  obtain ⟨n, hp⟩ := hu
  obtain ⟨w, c, hn, hnode⟩ := hs.node hp
  cases w with
  | dict m =>
    cases hf : m.find key with
    | some k => exact throw_ok (e := .keyError) hs (by simp [step, hnode, hf]) (fun d hd => by simp [DState.step, hd.node hp hn, hf])
    | none =>
      have hlt := (List.getElem?_eq_some_iff.1 hn).1
      refine ⟨.ok (), ⟨(s.heap ++ [MNode.mk (some v.val) 1]).set n ⟨some (.dict (m.emplace key s.heap.length)), c + 1⟩, s.handles⟩,
        by simp only [step, hnode, hf], by simp, ?_, ?_, ?_⟩
      · have h1 := Inv.push (v := v.val) (heap := s.heap) (ext := s.handles.flatMap MHandle.target) (by rw [scalar_kids]; exact hs)
        refine h1.set (nd := ⟨some (.dict m), c + 1⟩) (by rw [List.getElem?_append_left hlt]; exact hn) (by simp) ?_ ?_
        · have := kids_emplace (R := R) hf s.heap.length n
          simp only [MNode.kids, this, List.count_cons, beq_iff_eq]
          omega
        · intro k _
          have := kids_emplace (R := R) hf s.heap.length k
          simp only [MNode.kids, this, List.count_cons, beq_iff_eq]
          omega
      · rintro a b ⟨x, hx, hb⟩
        rcases hasVal_set hx with ⟨rfl, e⟩ | ⟨-, hx⟩
        · have e := Option.some.inj e
          subst e
          rcases mem_kids_emplace hf hb with rfl | hb
          · exact Or.inr ⟨hp, rfl⟩
          · exact Or.inl ⟨_, ⟨_, hn⟩, hb⟩
        · rcases hasVal_append hx with ⟨-, hx⟩ | ⟨-, c', hc⟩
          · exact Or.inl ⟨x, hx, hb⟩
          · have := List.mem_of_getElem? hc
            simp only [List.mem_singleton, MNode.mk.injEq, Option.some.injEq] at this
            rw [this.1, scalar_kids] at hb
            cases hb
      · intro d hd
        have hw := step_wf hd.wf (.add h key v)
        simp only [Op.plain]
        simp only [DState.step, hd.node hp hn, hf] at hw ⊢
        refine ⟨trivial, hw, by simp [hd.len], hd.hlen, ?_, hd.handle⟩
        intro k x hx
        simp only
        rw [List.getElem?_set]
        rcases hasVal_set hx with ⟨rfl, e⟩ | ⟨hne, hx⟩
        · simp only [Option.some.injEq] at e
          subst e
          simp [← hd.len, hlt]
          omega
        · rw [if_neg (fun e => hne e.symm)]
          rcases hasVal_append hx with ⟨hl, hx⟩ | ⟨hl, c', hc⟩
          · rw [List.getElem?_append_left (by rw [← hd.len]; exact hl)]; exact hd.val k x hx
          · rw [List.getElem?_append_right (by rw [← hd.len]; exact hl), ← hd.len]
            rcases hk : k - s.heap.length with _ | j
            · rw [hk] at hc; simp at hc; simp [hc.1]
            · rw [hk] at hc; simp at hc
  | int i => exact throw_ok (e := .valueError) hs (by simp [step, hnode]) (fun d hd => by simp [DState.step, hd.node hp hn])
  | real r => exact throw_ok (e := .valueError) hs (by simp [step, hnode]) (fun d hd => by simp [DState.step, hd.node hp hn])
  | mat m => exact throw_ok (e := .valueError) hs (by simp [step, hnode]) (fun d hd => by simp [DState.step, hd.node hp hn])

theorem step_addDict {s : MState R} (hs : s.Ok) {h h2 : Nat} {key : String} (hu : s.Points h) (hu2 : s.Points h2) :
    StepOk s (.op (.addDict h key h2)) := by
  obtain ⟨n, hp⟩ := hu
  obtain ⟨n2, hp2⟩ := hu2
  obtain ⟨w, c, hn, hnode⟩ := hs.node hp
  obtain ⟨w2, c2, hn2, hnode2⟩ := hs.node hp2
  cases w with
  | dict m =>
    cases hf : m.find key with
    | some k =>
      exact throw_ok (e := .keyError) hs (by simp [step, hnode, hnode2, hf])
        (fun d hd => by simp [DState.step, hd.node hp hn, hd.node hp2 hn2, hf])
    | none =>
      have hlt := (List.getElem?_eq_some_iff.1 hn).1
      -- the value `n2` after the entry has been added
      obtain ⟨x, cx, hx⟩ : ∃ x cx, (s.heap.set n ⟨some (.dict (m.emplace key n2)), c + 1⟩)[n2]? = some ⟨some x, cx⟩ := by
        rw [List.getElem?_set]
        split
        · exact ⟨_, _, rfl⟩
        · exact ⟨_, _, hn2⟩
      have hinv : Inv ((s.heap.set n ⟨some (.dict (m.emplace key n2)), c + 1⟩).set n2 ⟨some x, cx + 1⟩)
          (s.handles.flatMap MHandle.target) := by
        have hlt2 : n2 < (s.heap.set n ⟨some (.dict (m.emplace key n2)), c + 1⟩).length :=
          (List.getElem?_eq_some_iff.1 hx).1
        constructor
        · intro k
          have e1 := count_flatMap_set MNode.kids hn ⟨some (.dict (m.emplace key n2)), c + 1⟩ k
          have e2 := count_flatMap_set MNode.kids hx ⟨some x, cx + 1⟩ k
          have e3 := hs.counts k
          have e4 := kids_emplace (R := R) hf n2 k
          have e5 := countOf_some hx
          simp only [MNode.kids] at e1 e2 e4 e5
          rw [countOf_set hlt2]
          rw [countOf_set hlt] at e5
          split
          · rename_i e
            subst e
            simp only [if_true] at e4
            split at e5
            · rename_i e
              subst e
              rw [countOf_some hn] at e3
              simp only [MNode.kids] at *
              omega
            · simp only [MNode.kids] at *
              omega
          · rename_i e
            rw [if_neg (fun h => e h.symm)] at e4
            rw [countOf_set hlt]
            split
            · rename_i e'
              subst e'
              rw [countOf_some hn] at e3
              simp only [MNode.kids] at *
              omega
            · simp only [MNode.kids] at *
              omega
        · intro k nd hk
          rw [List.getElem?_set] at hk
          split at hk
          · simp only [Option.some.injEq] at hk; subst hk; simp
          · rw [List.getElem?_set] at hk
            split at hk
            · simp only [Option.some.injEq] at hk; subst hk; simp
            · exact hs.alive k nd hk
      refine ⟨.ok (), ⟨(s.heap.set n ⟨some (.dict (m.emplace key n2)), c + 1⟩).set n2 ⟨some x, cx + 1⟩, s.handles⟩,
        by simp [step, hnode, hnode2, hf, withNew, acquire, hx], by simp, hinv, ?_, ?_⟩
      · rintro a b ⟨y, hy, hb⟩
        rcases hasVal_set (hasVal_count hx hy) with ⟨rfl, e⟩ | ⟨-, hy⟩
        · have e := Option.some.inj e
          subst e
          rcases mem_kids_emplace hf hb with rfl | hb
          · exact Or.inr ⟨hp, hp2⟩
          · exact Or.inl ⟨_, ⟨_, hn⟩, hb⟩
        · exact Or.inl ⟨y, hy, hb⟩
      intro d hd
      have hw := step_wf hd.wf (.addDict h key h2)
      simp only [Op.plain]
      simp only [DState.step, hd.node hp hn, hd.node hp2 hn2, hf] at hw ⊢
      refine ⟨trivial, hw, by simp [hd.len], hd.hlen, ?_, hd.handle⟩
      intro k y hy
      have hy := hasVal_count hx hy
      simp only
      rw [List.getElem?_set]
      rcases hasVal_set hy with ⟨rfl, e⟩ | ⟨hne, hy⟩
      · simp only [Option.some.injEq] at e
        subst e
        simp [← hd.len, hlt]
      · rw [if_neg (fun e => hne e.symm)]
        exact hd.val k y hy
  | int i =>
    exact throw_ok (e := .valueError) hs (by simp [step, hnode, hnode2]) (fun d hd => by simp [DState.step, hd.node hp hn, hd.node hp2 hn2])
  | real r =>
    exact throw_ok (e := .valueError) hs (by simp [step, hnode, hnode2]) (fun d hd => by simp [DState.step, hd.node hp hn, hd.node hp2 hn2])
  | mat m =>
    exact throw_ok (e := .valueError) hs (by simp [step, hnode, hnode2]) (fun d hd => by simp [DState.step, hd.node hp hn, hd.node hp2 hn2])

/-- A value replaced by one without pointers. -/
theorem replace_spec {s : MState R} (hs : s.Ok) {n : Nat} {w x : DVal R} {c : Nat} (hn : s.heap[n]? = some ⟨some w, c + 1⟩)
    (hx : x.kids = []) :
    ∃ s', s.finish (s.heap.set n ⟨some x, c + 1⟩) w.kids s.handles = (.ok (), s') ∧ s'.Ok ∧
      (∀ a b, Refers s'.heap a b → Refers s.heap a b) ∧
      ∀ d, Sim s d → DWf (⟨d.heap.set n x, d.handles⟩ : DState R) → Sim s' ⟨d.heap.set n x, d.handles⟩ := by
  have hlt := (List.getElem?_eq_some_iff.1 hn).1
  have hi : Inv (s.heap.set n ⟨some x, c + 1⟩) (s.handles.flatMap MHandle.target ++ w.kids) := by
    refine Inv.set hs hn (by simp) ?_ ?_
    · simp [MNode.kids, hx, List.count_append]; omega
    · intro m _
      simp [MNode.kids, hx, List.count_append]
  obtain ⟨s', h1, h2, h3, h4, h5⟩ := finish_spec s hi
  refine ⟨s', h1, h2, ?_, ?_⟩
  · rintro a b ⟨y, hy, hb⟩
    rcases hasVal_set (h5 a y hy) with ⟨-, e⟩ | ⟨-, hy⟩
    · have e := Option.some.inj e
      subst e
      rw [hx] at hb
      cases hb
    · exact ⟨y, hy, hb⟩
  intro d hd hw
  refine ⟨hw, by rw [h4]; simp [hd.len], by rw [h3]; exact hd.hlen, ?_, by rw [h3]; exact hd.handle⟩
  intro k y hy
  simp only
  rw [List.getElem?_set]
  rcases hasVal_set (h5 k y hy) with ⟨rfl, e⟩ | ⟨hne, hy⟩
  · simp only [Option.some.injEq] at e
    subst e
    simp [← hd.len, hlt]
  · rw [if_neg (fun e => hne e.symm)]
    exact hd.val k y hy

theorem step_assign {s : MState R} (hs : s.Ok) {h : Nat} {v : DScalar R} (hu : s.Points h) : StepOk s (.op (.assign h v)) := by
  obtain ⟨n, hp⟩ := hu
  obtain ⟨w, c, hn, hnode⟩ := hs.node hp
  obtain ⟨s', h1, h2, he, h3⟩ := replace_spec hs hn (scalar_kids v)
  refine ⟨.ok (), s', by simp only [step, hnode]; exact h1, by simp, h2, fun a b h => Or.inl (he a b h), ?_⟩
  intro d hd
  have hw := step_wf hd.wf (.assign h v)
  simp only [Op.plain]
  simp only [DState.step, hd.node hp hn] at hw ⊢
  exact ⟨trivial, h3 d hd hw⟩

theorem step_assignFrom {s : MState R} (hs : s.Ok) {h h2 : Nat} (hu : s.Uses (.op (.assignFrom h h2))) :
    StepOk s (.op (.assignFrom h h2)) := by
  obtain ⟨⟨n, hp⟩, ⟨n2, hp2⟩, hne⟩ := hu
  obtain ⟨w, c, hn, hnode⟩ := hs.node hp
  obtain ⟨w2, c2, hn2, hnode2⟩ := hs.node hp2
  cases w2 with
  | mat m =>
    have hnn : n ≠ n2 := by
      rintro rfl
      exact hne n m hp hp2 ⟨_, hn2⟩
    obtain ⟨s', h1, h1', he, h3⟩ := replace_spec (x := .mat m) hs hn rfl
    refine ⟨.ok (), s', by simp only [step, hnode, hnode2, if_neg hnn]; exact h1, by simp, h1',
      fun a b h => Or.inl (he a b h), ?_⟩
    intro d hd
    have hw := step_wf hd.wf (.assignFrom h h2)
    simp only [Op.plain]
    simp only [DState.step, hd.node hp hn, hd.node hp2 hn2, if_neg hnn] at hw ⊢
    exact ⟨trivial, h3 d hd hw⟩
  | dict m =>
    exact throw_ok (e := .valueError) hs (by simp [step, hnode, hnode2]) (fun d hd => by simp [DState.step, hd.node hp hn, hd.node hp2 hn2])
  | int i =>
    exact throw_ok (e := .valueError) hs (by simp [step, hnode, hnode2]) (fun d hd => by simp [DState.step, hd.node hp hn, hd.node hp2 hn2])
  | real r =>
    exact throw_ok (e := .valueError) hs (by simp [step, hnode, hnode2]) (fun d hd => by simp [DState.step, hd.node hp hn, hd.node hp2 hn2])

/-- An object that changes its pointer. -/
theorem count_target_set {s : MState R} {h : Nat} {p : MHandle} (hp : s.handles[h]? = some p) (q : MHandle) (n : Nat) :
    ((s.handles.set h q).flatMap MHandle.target).count n + p.target.count n =
      (s.handles.flatMap MHandle.target).count n + q.target.count n :=
  count_flatMap_set MHandle.target hp q n

theorem handle_set {s : MState R} {h k n : Nat} {q : MHandle} (hk : (s.handles.set h q)[k]? = some (.ref n)) :
    (k = h ∧ q = .ref n) ∨ (k ≠ h ∧ s.handles[k]? = some (.ref n)) := by
  rw [List.getElem?_set] at hk
  split at hk
  · rename_i e
    split at hk
    · exact Or.inl ⟨e.symm, Option.some.inj hk⟩
    · cases hk
  · rename_i e; exact Or.inr ⟨fun h => e h.symm, hk⟩

theorem step_drop {s : MState R} (hs : s.Ok) {h : Nat} (hu : s.Alive h) : StepOk s (.drop h) := by
  obtain ⟨p, hp, hg⟩ := hu
  obtain ⟨s', h1, h2, h3, h4, h5⟩ := finish_spec s (heap := s.heap) (ps := p.target) (handles := s.handles.set h .gone)
    (Inv.congr hs (fun n => by
      have := count_target_set hp .gone n
      simp only [MHandle.target, List.count_nil] at this
      rw [List.count_append]; simp only [MHandle.target]; omega))
  refine ⟨.ok (), s', ?_, by simp, h2, fun _ _ h => Or.inl (h.of h5), ?_⟩
  · cases p with
    | gone => exact absurd rfl hg
    | null => simpa only [step, hp] using h1
    | ref n => simpa only [step, hp] using h1
  · intro d hd
    refine ⟨hd.wf, by rw [h4]; exact hd.len, by rw [h3]; simpa using hd.hlen, fun n v h => hd.val n v (h5 n v h), ?_⟩
    intro k n hk
    rw [h3] at hk
    rcases handle_set hk with ⟨-, e⟩ | ⟨-, e⟩
    · cases e
    · exact hd.handle k n e

theorem step_move {s : MState R} (hs : s.Ok) {h : Nat} (hu : s.Alive h) : StepOk s (.move h) := by
  obtain ⟨p, hp, hg⟩ := hu
  refine ⟨.ok (), ⟨s.heap, s.handles.set h .null ++ [p]⟩, ?_, by simp, ?_, fun _ _ h => Or.inl h, ?_⟩
  · cases p with
    | gone => exact absurd rfl hg
    | null => simp only [step, hp]
    | ref n => simp only [step, hp]
  · refine Inv.congr hs ?_
    intro n
    have := count_target_set hp .null n
    simp only [MHandle.target, List.count_nil] at this
    simp only [List.flatMap_append, List.flatMap_cons, List.flatMap_nil, List.append_nil, List.count_append]
    simp only [MHandle.target]
    omega
  · intro d hd
    obtain ⟨n, v, hn⟩ := hd.any hp
    have hw := step_wf hd.wf (.copy h)
    simp only [Op.plain]
    simp only [DState.step, hn] at hw ⊢
    refine ⟨trivial, hw, hd.len, by simp [hd.hlen], hd.val, ?_⟩
    intro k m hk
    simp only at hk ⊢
    rcases getElem?_push hk with hk | ⟨e1, e⟩
    · rcases handle_set hk with ⟨-, e⟩ | ⟨-, hk⟩
      · cases e
      · have := hd.handle k m hk
        rw [List.getElem?_append_left (List.getElem?_eq_some_iff.1 this).1]; exact this
    · subst e
      have := hd.handle h m hp
      rw [(node_eq_ok.1 hn).1] at this
      simp only [Option.some.injEq] at this
      subst this
      simp only [List.length_set, hd.hlen] at e1
      simp [e1]

theorem step_rebind {s : MState R} (hs : s.Ok) {h h2 : Nat} (hu : s.Alive h) (hu2 : s.Alive h2) :
    StepOk s (.op (.rebind h h2)) := by
  obtain ⟨p, hp, hg⟩ := hu
  obtain ⟨p2, hp2, hg2⟩ := hu2
  have hlt := (List.getElem?_eq_some_iff.1 hp).1
  cases p2 with
  | gone => exact absurd rfl hg2
  | null =>
    obtain ⟨s', h1, h3, h4, h5, h6⟩ := finish_spec s (heap := s.heap) (ps := p.target) (handles := s.handles.set h .null)
      (Inv.congr hs (fun n => by
        have := count_target_set hp .null n
        simp only [MHandle.target, List.count_nil] at this
        rw [List.count_append]; simp only [MHandle.target]; omega))
    refine ⟨.ok (), s', ?_, by simp, h3, fun _ _ h => Or.inl (h.of h6), ?_⟩
    · cases p with
      | gone => exact absurd rfl hg
      | null => simpa only [step, hp, hp2] using h1
      | ref n => simpa only [step, hp, hp2] using h1
    · intro d hd
      obtain ⟨n, v, hn⟩ := hd.any hp
      obtain ⟨n2, v2, hn2⟩ := hd.any hp2
      have hw := step_wf hd.wf (.rebind h h2)
      simp only [Op.plain]
      simp only [DState.step, hn, hn2] at hw ⊢
      refine ⟨trivial, hw, by rw [h5]; exact hd.len, by rw [h4]; simpa using hd.hlen, fun n v h => hd.val n v (h6 n v h), ?_⟩
      intro k m hk
      rw [h4] at hk
      rcases handle_set hk with ⟨-, e⟩ | ⟨hne, hk⟩
      · cases e
      · simp only
        rw [List.getElem?_set, if_neg (fun e => hne e.symm)]
        exact hd.handle k m hk
  | ref n2 =>
    obtain ⟨v2, c2, hn2⟩ := hs.handle hp2
    obtain ⟨ha, hi⟩ := acquire_spec hs hn2
    obtain ⟨s', h1, h3, h4, h5, h6⟩ := finish_spec s (ps := p.target) (handles := s.handles.set h (.ref n2))
      (hi.congr (fun n => by
        have := count_target_set hp (.ref n2) n
        rw [List.count_append, List.count_cons]
        simp only [MHandle.target, List.count_cons, List.count_nil] at this
        simp only [MHandle.target]
        omega))
    refine ⟨.ok (), s', ?_, by simp, h3, fun _ _ h => Or.inl (h.of fun n v h => hasVal_count hn2 (h6 n v h)), ?_⟩
    · cases p with
      | gone => exact absurd rfl hg
      | null => simpa only [step, hp, hp2, withNew, ha] using h1
      | ref n => simpa only [step, hp, hp2, withNew, ha] using h1
    · intro d hd
      obtain ⟨n, v, hn⟩ := hd.any hp
      have hw := step_wf hd.wf (.rebind h h2)
      simp only [Op.plain]
      simp only [DState.step, hn, hd.node hp2 hn2] at hw ⊢
      refine ⟨trivial, hw, by rw [h5]; simpa using hd.len, by rw [h4]; simpa using hd.hlen,
        fun n v h => hd.val n v (hasVal_count hn2 (h6 n v h)), ?_⟩
      intro k m hk
      rw [h4] at hk
      simp only
      rw [List.getElem?_set]
      rcases handle_set hk with ⟨rfl, e⟩ | ⟨hne, hk⟩
      · cases e
        simp [← hd.hlen, hlt]
      · rw [if_neg (fun e => hne e.symm)]
        exact hd.handle k m hk

/-- Every statement that uses living objects. -/
theorem step_ok {s : MState R} (hs : s.Ok) : ∀ {op : Op R}, s.Uses op → StepOk s op
  | .op .empty, _ => step_empty hs
  | .op (.single k v), _ => step_single hs k v
  | .op (.copy _), hu => step_copy hs hu
  | .op (.rebind _ _), hu => step_rebind hs hu.1 hu.2
  | .op (.index _ _), hu => step_index hs hu
  | .op (.add _ _ _), hu => step_add hs hu
  | .op (.addDict _ _ _), hu => step_addDict hs hu.1 hu.2
  | .op (.assign _ _), hu => step_assign hs hu
  | .op (.assignFrom _ _), hu => step_assignFrom hs hu
  | .move _, hu => step_move hs hu
  | .drop _, hu => step_drop hs hu

theorem not_alive {s : MState R} {h : Nat} (hn : ¬ s.Alive h) : s.handles[h]? = none ∨ s.handles[h]? = some .gone := by
  rcases e : s.handles[h]? with _ | p
  · exact Or.inl rfl
  · right
    by_cases hp : p = .gone
    · rw [hp]
    · exact absurd ⟨p, e, hp⟩ hn

/-- All other statements are undefined. -/
theorem step_undefined {s : MState R} (hs : s.Ok) {op : Op R} (hu : ¬ s.Uses op) : (s.step op).1 = .ub := by
  match op, hu with
  | .op .empty, hu => exact absurd trivial hu
  | .op (.single _ _), hu => exact absurd trivial hu
  | .op (.copy h), hu => rcases not_alive hu with e | e <;> simp [step, e]
  | .move h, hu => rcases not_alive hu with e | e <;> simp [step, e]
  | .drop h, hu => rcases not_alive hu with e | e <;> simp [step, e]
  | .op (.rebind h h2), hu =>
    by_cases h1 : s.Alive h
    · have h2' : ¬ s.Alive h2 := fun h2' => hu ⟨h1, h2'⟩
      obtain ⟨p, hp, hg⟩ := h1
      cases p with
      | gone => exact absurd rfl hg
      | null => rcases not_alive h2' with e | e <;> simp [step, hp, e]
      | ref n => rcases not_alive h2' with e | e <;> simp [step, hp, e]
    · rcases not_alive h1 with e | e <;> simp [step, e]
  | .op (.index h k), hu => simp [step, node_not hu]
  | .op (.add h k v), hu => simp [step, node_not hu]
  | .op (.assign h v), hu => simp [step, node_not hu]
  | .op (.addDict h k h2), hu =>
    by_cases h1 : s.Points h
    · have h2' : ¬ s.Points h2 := fun h2' => hu ⟨h1, h2'⟩
      obtain ⟨n, hp⟩ := h1
      obtain ⟨v, c, -, hnode⟩ := hs.node hp
      cases v <;> simp [step, hnode, node_not h2']
    · simp [step, node_not h1]
  | .op (.assignFrom h h2), hu =>
    by_cases h1 : s.Points h
    · by_cases h2' : s.Points h2
      · obtain ⟨n, hp⟩ := h1
        obtain ⟨n2, hp2⟩ := h2'
        have : ∃ k m, s.handles[h]? = some (.ref k) ∧ s.handles[h2]? = some (.ref k) ∧ HasVal s.heap k (.mat m) := by
          by_contra hno
          exact hu ⟨⟨n, hp⟩, ⟨n2, hp2⟩, fun k m e1 e2 e3 => hno ⟨k, m, e1, e2, e3⟩⟩
        obtain ⟨k, m, e1, e2, c, e3⟩ := this
        simp [step, MState.node, e1, e2, e3]
      · obtain ⟨n, hp⟩ := h1
        obtain ⟨v, c, -, hnode⟩ := hs.node hp
        simp [step, hnode, node_not h2']
    · simp [step, node_not h1]

end MState
end Verif
