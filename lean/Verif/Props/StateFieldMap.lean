import Verif.Props.FieldMap
import Verif.Props.StateField
/-
Property C51: maps over state fields follow the cycles.
-/
set_option linter.unusedSectionVars false

namespace Verif.Props
open Verif Verif.Ccoord Verif.Layout Verif.Collection Verif.Collection.Coll Verif.Spec

variable {α U : Type} [Inhabited α] [DecidableEq U]

/-- A state field as registered: one index for every step, all of them valid. -/
def StateOk (s : StateField U) (N : Nat) : Prop :=
  s.nbMemory = N ∧ s.names.length = N + 1 ∧ s.indices.length = N + 1 ∧ ∀ v ∈ s.indices, v < N + 1

theorem mapM_ok {β γ : Type} {F : β → Res γ} {G : β → γ} {l : List β} (h : ∀ x ∈ l, F x = .ok (G x)) :
    l.mapM F = .ok (l.map G) := by
  suffices hh : ∀ (l : List β) (acc : List γ), (∀ x ∈ l, F x = .ok (G x)) →
      List.mapM.loop F l acc = .ok (acc.reverse ++ l.map G) by
    unfold List.mapM
    rw [hh l [] h]; rfl
  intro l
  induction l with
  | nil => intro acc _; simp [List.mapM.loop]
  | cons x l ih =>
    intro acc h
    unfold List.mapM.loop
    rw [h x (by simp), Res.ok_bind, ih _ (fun y hy => h y (by simp [hy]))]
    simp

/-- Calls change neither the fields a state field consists of nor the number of its indices. -/
theorem stStep_state {c : Coll α U} {pre : String} {N : Nat} {s : StateField U}
    (hs : c.states.find pre = some s) (hok : StateOk s N) (op : StOp α U) :
    ∃ s', (c.stStep pre op).2.states.find pre = some s' ∧ StateOk s' N ∧ s'.names = s.names := by
  have hon : ∀ n (g : Field α U → Res Unit × Field α U), (c.onField n g).2.states = c.states := by
    intro n g
    unfold onField
    cases c.fields.find n <;> rfl
  cases op with
  | onCurrent op =>
    refine ⟨s, ?_, hok, rfl⟩
    unfold stStep
    cases c.currentName pre with
    | ok n => simp only; rw [hon]; exact hs
    | throw e => exact hs
    | ub => exact hs
  | onOther name op =>
    refine ⟨s, ?_, hok, rfl⟩
    unfold stStep
    rw [hon]; exact hs
  | cycle =>
    simp only [stStep, Coll.cycle, hs, SMap.find_insert_self]
    refine ⟨_, rfl, ⟨hok.1, hok.2.1, by simpa using hok.2.2.1, ?_⟩, rfl⟩
    intro v hv
    obtain ⟨u, _, rfl⟩ := List.mem_map.1 hv
    rw [hok.1]
    exact Nat.mod_lt _ (by simp)

theorem stRun_state {pre : String} {N : Nat} (ops : List (StOp α U)) :
    ∀ {c c' : Coll α U} {s : StateField U}, c.states.find pre = some s → StateOk s N →
      c.stRun pre ops = some c' →
      ∃ s', c'.states.find pre = some s' ∧ StateOk s' N ∧ s'.names = s.names := by
  induction ops with
  | nil =>
    intro c c' s hs hok hr
    simp only [stRun, Option.some.injEq] at hr
    subst hr
    exact ⟨s, hs, hok, rfl⟩
  | cons op ops ih =>
    intro c c' s hs hok hr
    obtain ⟨s1, h1, h2, h3⟩ := stStep_state hs hok op
    unfold stRun at hr
    rcases hst : c.stStep pre op with ⟨r, c1⟩
    rw [hst] at hr h1
    have hr' : c1.stRun pre ops = some c' := by
      cases r with
      | ub => simp at hr
      | ok _ => exact hr
      | throw _ => exact hr
    obtain ⟨s2, g1, g2, g3⟩ := ih h1 h2 hr'
    exact ⟨s2, g1, g2, g3.trans h3⟩

theorem makeMaps_get {c : Coll α U} {rows : Int} {it : IterUnit} : ∀ {names : List String}
    {maps : List FieldMap}, StateFieldMap.makeMaps c rows it names = .ok maps →
    ∀ (j : Nat) n, names[j]? = some n → ∃ m, maps[j]? = some m ∧ FieldMap.mkRows c n rows it = .ok m := by
  intro names
  induction names with
  | nil => intro maps _ j n hn; simp at hn
  | cons a names ih =>
    intro maps h j n hn
    unfold StateFieldMap.makeMaps at h
    obtain ⟨m, hm, h⟩ := Res.bind_eq_ok.1 h
    obtain ⟨ms, hms, h⟩ := Res.bind_eq_ok.1 h
    simp only [Res.pure_eq, Res.ok.injEq] at h
    subst h
    cases j with
    | zero =>
      simp only [List.getElem?_cons_zero, Option.some.injEq] at hn
      subst hn
      exact ⟨m, rfl, hm⟩
    | succ j => exact ih hms j n hn

/-- **C51** A map over a state field, made at any time after initialisation (`c0`), gives after any
further calls (`ops`: writes, cycles, exceptions; `c` is the state then) for `current()` the entry of
the then current field, and for `old(k)` the entry of the field the state field then returns for
`old(k)`.  `K` is the number of scalars per iterate; `hcap` says that the fields are allocated and
large enough for the index. -/
theorem C51_follows {srt : SortFn} {c0 c : Coll α U} (hb : Built srt c0) (hi : c0.initialised = true)
    {pre : String} {s : StateField U} {N : Nat} (hs : c0.states.find pre = some s) (hok : StateOk s N)
    {it : IterUnit} {K : Nat}
    (hK : ∀ n ∈ s.names, ∃ f, c0.fields.find n = some f ∧ perIter f it = K)
    {rows : Int} (hr : 1 ≤ rows) {sm : StateFieldMap}
    (hm : StateFieldMap.mk' c0 pre (some rows) it = .ok sm) {ops : List (StOp α U)}
    (hrun : c0.stRun pre ops = some c) (i : Nat) {g : Nat → Field α U}
    (hcap : ∀ k ≤ N, c.stateOld pre k = .ok (g k) ∧ (g k).fresh = true ∧ (i + 1) * K ≤ (g k).vals.length) :
    ∃ w, StateFieldMap.get c sm i = .ok w ∧
      StateFieldMap.current w = .ok (chunk (g 0).vals K i) ∧
      (∀ k, 1 ≤ k → k ≤ N → StateFieldMap.old w k = .ok (chunk (g k).vals K i)) ∧
      (∀ k, N < k → StateFieldMap.old w k = .throw .outOfRange) := by
  obtain ⟨s', hs', hok', hnames⟩ := stRun_state ops hs hok hrun
  unfold StateFieldMap.mk' at hm
  simp only [hs] at hm
  obtain ⟨f0, _, hm⟩ := Res.bind_eq_ok.1 hm
  obtain ⟨maps, hmaps, hm⟩ := Res.bind_eq_ok.1 hm
  simp only [Res.pure_eq, Res.ok.injEq] at hm
  subst hm
  have hget : ∀ k ∈ List.range (N + 1), (do
      let m ← StateFieldMap.mapAt c ⟨pre, it, rows, maps⟩ k
      FieldMap.access c m i) = .ok (chunk (g k).vals K i) := by
    intro k hk
    have hk' : k ≤ N := by simpa [Nat.lt_succ_iff] using hk
    obtain ⟨ho, hfr, hlen⟩ := hcap k hk'
    obtain ⟨j, hj⟩ : ∃ j, s'.indices[k]? = some j :=
      ⟨_, List.getElem?_eq_getElem (by rw [hok'.2.2.1]; omega)⟩
    have hjlt := hok'.2.2.2 j (List.mem_of_getElem? hj)
    obtain ⟨n, hn⟩ : ∃ n, s'.names[j]? = some n :=
      ⟨_, List.getElem?_eq_getElem (by rw [hok'.2.1]; omega)⟩
    obtain ⟨m, hmj, hmk⟩ := makeMaps_get hmaps j n (hnames ▸ hn)
    obtain ⟨f, hf, hfk⟩ := hK n (hnames ▸ List.mem_of_getElem? hn)
    obtain ⟨hon, _, hmn⟩ := mkRows_on hb.size hi hf hr hmk
    unfold stateOld StateField.slotName at ho
    simp only [hs', hj, hn] at ho
    cases hff : c.fields.find n with
    | none => rw [hff] at ho; simp at ho
    | some f' =>
      rw [hff] at ho
      simp only [Res.ok.injEq] at ho
      subst ho
      have hon' : FieldMap.On c m (g k) K :=
        ⟨by rw [hmn]; exact hff, hon.ready, hfr, hon.rows, hon.cols, hfk ▸ hon.shape, hfk ▸ hon.stride⟩
      simp only [StateFieldMap.mapAt, hs', hj, hmj, Res.ok_bind]
      exact FieldMap.access_ok hon' hlen
  refine ⟨(List.range (N + 1)).map (fun k => chunk (g k).vals K i), ?_, ?_, ?_, ?_⟩
  · unfold StateFieldMap.get StateFieldMap.wrapper
    simp only [hs', hok'.1, Int.toNat_natCast]
    exact mapM_ok hget
  · unfold StateFieldMap.current
    rw [List.getElem?_map, List.getElem?_range (by omega)]; rfl
  · intro k h1 h2
    unfold StateFieldMap.old
    rw [if_neg (by omega), List.getElem?_map, List.getElem?_range (by omega)]; rfl
  · intro k hk
    unfold StateFieldMap.old
    rw [if_neg (by omega), List.getElem?_eq_none (by simp; omega)]

/-- **C51**, in terms of the history of values, for memories `N` with `N + 1` a power of two (for other
memories the state field itself does not remember, `C21_exact`): the state field is registered in `c`,
used by `ops1`, then the map is made, then `ops2` follow.  The map's entries are those of the values
0, 1, …, `N` steps ago. -/
theorem C51_history_partial {srt : SortFn} {c c0 c1 c2 : Coll α U} {pre : String} {ty : ElemType} {N : Nat}
    (hN : ∃ j, N + 1 = 2 ^ j) {nbComp : Int} {tag : String} {unit : U}
    (hreg : c.registerState pre ty N nbComp tag unit false = (.ok (), c0)) {h : History (Field α U)}
    (h0 : ∀ k ≤ N, ∃ f, h.ago k = some f ∧ c0.stateOld pre k = .ok f)
    {ops1 ops2 : List (StOp α U)} (hf1 : ∀ op ∈ ops1, op.foreign pre) (hf2 : ∀ op ∈ ops2, op.foreign pre)
    (hrun1 : c0.stRun pre ops1 = some c1) (hb : Built srt c1) (hi : c1.initialised = true)
    {it : IterUnit} {K : Nat}
    (hK : ∀ j ≤ N, ∃ f, c1.fields.find (subFieldName pre j) = some f ∧ perIter f it = K)
    {rows : Int} (hr : 1 ≤ rows) {sm : StateFieldMap}
    (hm : StateFieldMap.mk' c1 pre (some rows) it = .ok sm)
    (hrun2 : c1.stRun pre ops2 = some c2) (i : Nat)
    (hcap : ∀ k ≤ N, ∀ f, ((ops1 ++ ops2).foldl (track N) h).ago k = some f →
      f.fresh = true ∧ (i + 1) * K ≤ f.vals.length) :
    ∃ w, StateFieldMap.get c2 sm i = .ok w ∧
      StateFieldMap.current w = .ok (chunk ((ops1 ++ ops2).foldl (track N) h).now.vals K i) ∧
      ∀ k, 1 ≤ k → k ≤ N → ∃ f, ((ops1 ++ ops2).foldl (track N) h).ago k = some f ∧
        StateFieldMap.old w k = .ok (chunk f.vals K i) := by
  have happ : ∀ (o1 o2 : List (StOp α U)) (a b d : Coll α U), a.stRun pre o1 = some b →
      b.stRun pre o2 = some d → a.stRun pre (o1 ++ o2) = some d := by
    intro o1
    induction o1 with
    | nil => intro o2 a b d h1 h2; simp only [stRun, Option.some.injEq] at h1; subst h1; exact h2
    | cons op o1 ih =>
      intro o2 a b d h1 h2
      rw [List.cons_append]
      unfold stRun at h1 ⊢
      rcases hst : a.stStep pre op with ⟨r, a'⟩
      rw [hst] at h1
      cases r with
      | ub => simp at h1
      | ok _ => exact ih o2 a' b d h1 h2
      | throw _ => exact ih o2 a' b d h1 h2
  obtain ⟨hcur, hold⟩ := C21_history_partial hN c c0 c2 pre ty nbComp tag unit h (ops1 ++ ops2) hreg h0
    (by intro op hop; rcases List.mem_append.1 hop with h' | h'
        · exact hf1 op h'
        · exact hf2 op h')
    (happ ops1 ops2 c0 c1 c2 hrun1 hrun2)
  obtain ⟨_, s0, hs0, hm0, hn0, hx0, _, _⟩ := registerState_new hreg
  have hok0 : StateOk s0 N := ⟨hm0, by rw [hn0]; simp, by rw [hx0]; simp [initialIndices],
    by rw [hx0]; exact initialIndices_lt⟩
  obtain ⟨s1, hs1, hok1, hn1⟩ := stRun_state ops1 hs0 hok0 hrun1
  let g : Nat → Field α U := fun k => match c2.stateOld pre k with
    | .ok f => f
    | _ => ((ops1 ++ ops2).foldl (track N) h).now
  have hg : ∀ k ≤ N, c2.stateOld pre k = .ok (g k) ∧
      ((ops1 ++ ops2).foldl (track N) h).ago k = some (g k) := by
    intro k hk
    obtain ⟨f, ha, ho⟩ := hold k hk
    simp only [g, ho]
    exact ⟨trivial, ha⟩
  obtain ⟨w, hw, hc, ho, _⟩ := C51_follows hb hi hs1 hok1 (K := K) (it := it)
    (by intro n hn
        rw [hn1, hn0] at hn
        obtain ⟨j, hj, rfl⟩ := List.mem_map.1 hn
        exact hK j (by simpa [Nat.lt_succ_iff] using hj))
    hr hm hrun2 i (g := g) (fun k hk => ⟨(hg k hk).1, hcap k hk _ (hg k hk).2⟩)
  refine ⟨w, hw, ?_, fun k h1 h2 => ⟨g k, (hg k h2).2, ho k h1 h2⟩⟩
  rw [hc]
  have := (hg 0 (Nat.zero_le N)).2
  simp only [History.ago, List.getElem?_cons_zero, Option.some.injEq] at this
  rw [this]

/-- C51 as documented: for every memory size of at least one (here for one component, sub-point maps). -/
def C51_statement : Prop :=
  ∀ N : Nat, 1 ≤ N → ∀ (c0 c1 c2 : Coll Int String) (h : History (Field Int String))
    (ops : List (StOp Int String)) (sm : StateFieldMap) (i : Nat),
    c0.registerState "s" .real N 1 "quad" "" false = (.ok (), c1) →
    c1.initialised = true →
    (∀ k ≤ N, ∃ f, h.ago k = some f ∧ c1.stateOld "s" k = .ok f) →
    (∀ op ∈ ops, op.foreign "s") →
    StateFieldMap.mk' c1 "s" (some 1) .subPt = .ok sm →
    c1.stRun "s" ops = some c2 →
    ∀ w, StateFieldMap.get c2 sm i = .ok w →
    ∀ k, 1 ≤ k → k ≤ N → ∃ f, (ops.foldl (track N) h).ago k = some f ∧
      StateFieldMap.old w k = .ok (chunk f.vals 1 i)

/-- Witness against C51: a memory of two, where one write to the current value follows. -/
def exAliasColl : Coll Int String := (exAfter.registerState "s" .real 2 1 "quad" "" false).2

def exAliasField (k : Nat) : Field Int String :=
  match exAliasColl.stateOld "s" k with
  | .ok f => f
  | _ => Field.new .real (.num 1) 1 "" ""

def exAliasOp : StOp Int String := .onCurrent (fun f => (.ok (), { f with vals := f.vals.map (· + 1) }))

def exAliasMap : StateFieldMap :=
  match StateFieldMap.mk' exAliasColl "s" (some 1) .subPt with
  | .ok sm => sm
  | _ => ⟨"", .subPt, 0, []⟩

theorem C51_false : ¬ C51_statement := by
  intro h
  obtain ⟨f, h1, h2⟩ := h 2 (by omega) exAfter exAliasColl ((exAliasColl.stRun "s" [exAliasOp]).getD exColl)
    ⟨exAliasField 0, [exAliasField 1, exAliasField 2]⟩ [exAliasOp] exAliasMap 0
    (by decide +kernel) (by decide +kernel)
    (by intro k hk
        match k, hk with
        | 0, _ => exact ⟨exAliasField 0, rfl, by decide +kernel⟩
        | 1, _ => exact ⟨exAliasField 1, rfl, by decide +kernel⟩
        | 2, _ => exact ⟨exAliasField 2, rfl, by decide +kernel⟩)
    (by intro op hop; simp only [List.mem_singleton] at hop; subst hop; trivial)
    (by decide +kernel) (by decide +kernel) [[1], [1], [0]] (by decide +kernel) 1 (by omega) (by omega)
  have h3 : f = exAliasField 1 := (Option.some.inj h1).symm
  subst h3
  revert h2
  decide +kernel

/-- Zero steps ago: `old(0)` of an entry raises `std::out_of_range`, of an entry of a statically
sized map it is undefined. -/
theorem C51_old_zero (w : List (List α)) :
    StateFieldMap.old w 0 = .throw .outOfRange ∧ StateFieldMap.oldStatic w 0 = .ub := ⟨rfl, rfl⟩

/-- Beyond the memory the static version is undefined while the other one throws. -/
theorem C51_old_beyond (w : List (List α)) {k : Nat} (h : w.length ≤ k) (hk : k ≠ 0) :
    StateFieldMap.old w k = .throw .outOfRange ∧ StateFieldMap.oldStatic w k = .ub := by
  unfold StateFieldMap.old StateFieldMap.oldStatic
  simp only [if_neg hk, List.getElem?_eq_none h, and_self]

/-- Example: a state field with memory one on two pixels; the map is made, a value is written, the
state field is cycled, another value is written. -/
def exStateMapColl : Coll Int String :=
  ((exLocal.run stableSort [.addPixel 3, .addPixel 8, .registerState "s" .real 1 1 "pixel" "" false,
    .initLocal]).getD exLocal)

def exStateMapOps : List (StOp Int String) :=
  [.onCurrent (fun f => (.ok (), { f with vals := [5, 6] })), .cycle,
   .onCurrent (fun f => (.ok (), { f with vals := [7, 8] }))]

example : (do
    let sm ← StateFieldMap.mk' exStateMapColl "s" (some 1) .pixel
    match exStateMapColl.stRun "s" exStateMapOps with
    | some c => StateFieldMap.get c sm 1
    | none => .ub) = Res.ok [[8], [6]] := by
  decide +kernel

end Verif.Props
