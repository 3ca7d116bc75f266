import Verif.Props.PyFile
/-
Examples for C82, and its negation in full.
-/
set_option linter.unusedSectionVars false

namespace Verif.Props
open Verif Verif.Ccoord Verif.Layout Verif.Layout.FieldLayout Verif.RawMemory Verif.Numpy Verif.Collection
  Verif.Collection.Coll Verif.PyField Verif.PySession Verif.PyArrays Verif.NetCDF Verif.PyFile Verif.FileIO

/-- A temperature and a vector at two sub-points. -/
def exSetup : List (PyCall Int String) :=
  [.field "T" .real (.shape []) "pixel" "" true, .field "u" .real (.shape [2]) "q" "" true]

/-- Two processes with two pixels each, of a domain with four, in different storage orders. -/
def exProcs : List (PyProc Int String) :=
  [⟨[2], [0], [("q", 2)], .colMajor, exSetup⟩, ⟨[2], [2], [("q", 2)], .rowMajor, exSetup⟩]

/-- One process with the whole domain. -/
def exProcs' : List (PyProc Int String) := [⟨[], [], [("q", 2)], .rowMajor, exSetup⟩]

/-- Stores on both processes, a frame, other values, the frame again, loads. -/
def exPyOps : List (PyOp Int String) :=
  [.py 0 (.setItem "T" .subPt [] 5), .py 1 (.setItem "T" .subPt [0, 1] 7), .py 1 (.setItem "u" .subPt [1, 0, -1] 9),
    .file .appendFrame, .file (.writeAll (-1)), .py 0 (.setZero "T"), .py 1 (.setZero "u"), .file (.writeAll 1),
    .py 1 (.getItem "u" .subPt [1]), .file (.readAll 0), .py 0 (.getItem "T" .subPt []), .py 1 (.getItem "T" .subPt []),
    .py 1 (.getItem "u" .subPt [1])]

/-- The collections of the processes. -/
def exCollsOf (prs : List (PyProc Int String)) (dom : List Int) : List (Coll Int String) :=
  prs.filterMap fun p => match p.make stableSort (fun _ => 8) dom with | .ok r => some r.2 | _ => none

example : (exCollsOf exProcs [4]).length = 2 ∧
    (createPy stableSort (fun _ => 8) .write (exCollsOf exProcs [4]) (fun _ _ => 77) (fun _ _ => 77) exPyOps).results =
    [.ok .nothing, .ok .nothing, .ok .nothing, .ok .nothing, .ok .nothing, .ok .nothing, .ok .nothing, .throw .fileIOError,
      .ok (.values [0, 0, 0, 0]), .ok .nothing, .ok (.values [5, 5]), .ok (.values [0, 7]), .ok (.values [0, 9, 0, 0])] := by
  decide +kernel

/-- The reader. -/
example : (usePy stableSort (fun _ => 8) .read (exCollsOf exProcs' [4])
      (createPy stableSort (fun _ => 8) .write (exCollsOf exProcs [4]) (fun _ _ => 77) (fun _ _ => 77) exPyOps).disk
      [.file (.readAll 0), .py 0 (.getItem "u" .subPt [1, 0, 3]), .py 0 (.getItem "T" .subPt [])]).results =
    [.ok .nothing, .ok (.values [9]), .ok (.values [5, 5, 0, 7])] := by
  decide +kernel

/-! The hypotheses of the theorems hold for it. -/

theorem exProcs_ok (prs : List (PyProc Int String)) (h : prs = exProcs ∨ prs = exProcs') : ∀ p ∈ prs, ProcOk [4] p := by
  have hv : ∀ tag n, SMap.find [("q", (2 : Int))] tag = some n → 1 ≤ n := by
    intro tag n h
    simp only [SMap.find] at h
    split at h
    · cases h; decide
    · cases h
  have hset : ∀ o (d : Dict Int String), ProgramOk o d exSetup := by
    intro o d
    exact ⟨by simp [CallOk, Comps.toShape, Pos], by simp [CallOk, Comps.toShape, Pos], trivial⟩
  intro p hp
  rcases h with rfl | rfl
  · simp only [exProcs, List.mem_cons, List.not_mem_nil, or_false] at hp
    rcases hp with rfl | rfl
    · exact ⟨by simp [SMap.Sorted], hv, Or.inl (by decide), Or.inl rfl, by decide, Or.inl rfl, Or.inr rfl, hset _ _⟩
    · exact ⟨by simp [SMap.Sorted], hv, Or.inl (by decide), Or.inr rfl, by decide, Or.inl rfl, Or.inr rfl, hset _ _⟩
  · simp only [exProcs', List.mem_cons, List.not_mem_nil, or_false] at hp
    subst hp
    exact ⟨by simp [SMap.Sorted], hv, Or.inl (by decide), Or.inr rfl, by decide, Or.inl rfl, Or.inl rfl, hset _ _⟩

/-- The arrays of the example. -/
def exArrs (n : String) : Option (Arr Int String) :=
  if n = "u" then some ⟨.real, [2], "q", 2, "", fun _ => 0⟩
  else if n = "T" then some ⟨.real, [], "pixel", 1, "", fun _ => 0⟩ else none

theorem exPart (p : PyProc Int String) (h1 : p.subPts = [("q", 2)]) (h2 : p.setup = exSetup) :
    (partOf [4] p).dict.arrs = exArrs ∧ (partOf [4] p).loc = first [4] p ∧ (partOf [4] p).dict.grid = grid [4] p := by
  refine ⟨?_, rfl, ?_⟩
  · simp only [partOf, h1, h2, exSetup]
    funext n
    rfl
  · simp only [partOf, h1, h2, exSetup]
    rfl

theorem exArrs_stored {n : String} {a : Arr Int String} (h : exArrs n = some a) :
    (n = "u" ∧ a = ⟨.real, [2], "q", 2, "", fun _ => 0⟩) ∨ (n = "T" ∧ a = ⟨.real, [], "pixel", 1, "", fun _ => 0⟩) := by
  simp only [exArrs] at h
  split at h
  · exact Or.inl ⟨by assumption, by cases h; rfl⟩
  · split at h
    · exact Or.inr ⟨by assumption, by cases h; rfl⟩
    · cases h

theorem exTogether (prs : List (PyProc Int String)) (h : prs = exProcs ∨ prs = exProcs') :
    Together [4] ["T", "u"] (prs.map (partOf [4])) := by
  have hall : ∀ p ∈ prs.map (partOf [4]), p.dict.arrs = exArrs := by
    intro p hp
    obtain ⟨q, hq, rfl⟩ := List.mem_map.1 hp
    refine (exPart q ?_ ?_).1
    · rcases h with rfl | rfl <;> simp [exProcs, exProcs'] at hq <;> (try rcases hq with rfl | rfl) <;> (try subst hq) <;> rfl
    · rcases h with rfl | rfl <;> simp [exProcs, exProcs'] at hq <;> (try rcases hq with rfl | rfl) <;> (try subst hq) <;> rfl
  refine ⟨by decide, by decide, ?_, ?_, ?_, ?_, by decide, ?_, ?_, ?_⟩
  · rcases h with rfl | rfl <;> simp [exProcs, exProcs']
  · intro p hp
    obtain ⟨q, hq, rfl⟩ := List.mem_map.1 hp
    rcases h with rfl | rfl
    · simp only [exProcs, List.mem_cons, List.not_mem_nil, or_false] at hq
      rcases hq with rfl | rfl <;> decide
    · simp only [exProcs', List.mem_cons, List.not_mem_nil, or_false] at hq
      subst hq
      decide
  · rcases h with rfl | rfl
    · rw [List.pairwise_map]
      simp only [exProcs, List.pairwise_cons, List.mem_cons, List.not_mem_nil, or_false, forall_eq, false_implies,
        implies_true, List.Pairwise.nil, and_true]
      intro g h1 h2
      change InBoxAt [2] [0] g at h1
      change InBoxAt [2] [2] g at h2
      match g with
      | [] => exact h1.elim
      | [x] =>
        simp only [InBoxAt] at h1 h2
        omega
      | _ :: _ :: _ => exact h1.2.2.elim
    · simp [exProcs']
  · intro g hg
    match g, hg with
    | [x], hg =>
      simp only [InBox, and_true] at hg
      rcases h with rfl | rfl
      · by_cases hx : x < 2
        · refine ⟨_, List.mem_map_of_mem (List.mem_cons_self), ?_⟩
          change InBoxAt [2] [0] [x]
          exact ⟨by omega, by omega, trivial⟩
        · refine ⟨_, List.mem_map_of_mem (List.mem_cons_of_mem _ List.mem_cons_self), ?_⟩
          change InBoxAt [2] [2] [x]
          exact ⟨by omega, by omega, trivial⟩
      · refine ⟨_, List.mem_map_of_mem (List.mem_cons_self), ?_⟩
        change InBoxAt [4] [0] [x]
        exact ⟨by omega, by omega, trivial⟩
  · intro p hp n
    rw [hall p hp]
    simp only [exArrs, List.mem_cons, List.not_mem_nil, or_false]
    by_cases h1 : n = "u"
    · simp [h1]
    · by_cases h2 : n = "T" <;> simp [h1, h2]
  · intro p hp p' hp' n a a' ha ha'
    rw [hall p hp] at ha
    rw [hall p' hp', ha] at ha'
    cases ha'
    rfl
  · intro p hp n a ha
    rw [hall p hp] at ha
    rcases exArrs_stored ha with ⟨rfl, rfl⟩ | ⟨rfl, rfl⟩
    · exact ⟨(fun h => nomatch h), by decide, fun _ => by decide, fun _ => by decide, by decide⟩
    · exact ⟨(fun h => nomatch h), fun _ => rfl, fun e => absurd rfl e, fun e => absurd (by decide) e, by decide⟩

/-- A statement of the example is as asked; what is read is looked up. -/
theorem exStep {orders : List StorageOrder} {s : Shared Int String} {r : Nat} {p : Part Int String} {o : StorageOrder}
    (hp : s.parts[r]? = some p) (ho : orders[r]? = some o) {op : PyCall Int String} (h : CallOk o p.dict op) :
    StepOk orders ["T", "u"] s (.py r op) := ⟨p, hp, o, ho, h⟩

theorem exPyOps_ok : StepsOk (exProcs.map fun p => p.order) ["T", "u"] (newShared (exProcs.map (partOf [4]))) exPyOps := by
  refine ⟨exStep rfl rfl (fun e => nomatch e), exStep rfl rfl (fun e => nomatch e), exStep rfl rfl (fun e => nomatch e), trivial, trivial,
    exStep rfl rfl trivial, exStep rfl rfl trivial, trivial, exStep rfl rfl (fun e => nomatch e), ?_, exStep rfl rfl (fun e => nomatch e),
    exStep rfl rfl (fun e => nomatch e), exStep rfl rfl (fun e => nomatch e), trivial⟩
  intro n hn _
  simp only [List.mem_cons, List.not_mem_nil, or_false] at hn
  rcases hn with rfl | rfl
  · exact Option.some_ne_none _
  · exact Option.some_ne_none _

/-- The whole example, for any values in unwritten places. -/
example (g : String → List Int → Int) (gi : String → List Int → Int) :
    ∃ cs : List (Coll Int String), List.Forall₂ (fun p c => PyProc.make stableSort (fun _ => 8) [4] p =
        .ok (((Dict.start (grid [4] p) p.subPts).run p.setup).1, c)) exProcs cs ∧
      (createPy stableSort (fun _ => 8) .write cs g gi exPyOps).results =
        ((newShared (exProcs.map (partOf [4]))).run ["T", "u"] exPyOps).1 := by
  obtain ⟨cs, h1, h2⟩ := C82_session_partial stableSort_spec (size := fun _ => 8) (fun _ => by decide) (exProcs_ok _ (Or.inl rfl))
    (exTogether _ (Or.inl rfl)) (Or.inl rfl) g gi exPyOps_ok
  exact ⟨cs, h1, h2.2.1⟩

/-! ### The full claim -/

/-- The calls of a program meet what C80 asks; nothing is asked of what is read from the file. -/
def CallsOk {α U : Type} [Inhabited α] [DecidableEq U] (orders : List StorageOrder) (names : List String) : Shared α U → List (PyOp α U) → Prop
  | _, [] => True
  | s, .py r op :: ops => StepOk orders names s (.py r op) ∧ CallsOk orders names (s.step names (.py r op)).2 ops
  | s, .file op :: ops => CallsOk orders names (s.step names (.file op)).2 ops

/-- **C82** in full, with respect to what may be read. -/
def C82_statement : Prop :=
  ∀ (srt : SortFn), SortSpec srt → ∀ (size : ElemType → Int), (∀ ty, 0 < size ty) →
  ∀ (dom : List Int) (names : List String) (prs : List (PyProc Int String)), (∀ p ∈ prs, ProcOk dom p) →
  Together dom names (prs.map (partOf dom)) → ∀ (garbage : String → List Int → Int) (garbageInt : String → List Int → Int)
    (ops : List (PyOp Int String)),
  CallsOk (prs.map fun p => p.order) names (newShared (prs.map (partOf dom))) ops →
  ∀ cs : List (Coll Int String), List.Forall₂ (fun p c => ∃ outs, PyProc.make srt size dom p = .ok (outs, c)) prs cs →
  (createPy srt size .write cs garbage garbageInt ops).results = ((newShared (prs.map (partOf dom))).run names ops).1

/-- A program that reads an array it has not written. -/
def exUnwritten : List (PyOp Int String) :=
  [.file .appendFrame, .file (.write 0 ["T"]), .file (.readAll 0), .py 1 (.getItem "u" .subPt [1, 0, 1])]

/-- The values that happen to be in the file arrive in the array. -/
example : (createPy stableSort (fun _ => 8) .write (exCollsOf exProcs [4]) (fun _ _ => 77) (fun _ _ => 77) exUnwritten).results =
    [.ok .nothing, .ok .nothing, .ok .nothing, .ok (.values [77])] := by decide +kernel

/-- **C82** The full statement is false: reading what was never written does not fail. -/
theorem C82_false : ¬ C82_statement := by
  intro h
  obtain ⟨c1, h1, -⟩ := C82_make stableSort_spec (size := fun _ => 8) (fun _ => by decide) (dom := [4]) (by decide)
    (exProcs_ok exProcs (Or.inl rfl) _ List.mem_cons_self)
  obtain ⟨c2, h2, -⟩ := C82_make stableSort_spec (size := fun _ => 8) (fun _ => by decide) (dom := [4]) (by decide)
    (exProcs_ok exProcs (Or.inl rfl) _ (List.mem_cons_of_mem _ List.mem_cons_self))
  have hc : exCollsOf exProcs [4] = [c1, c2] := by
    simp only [exCollsOf, exProcs, List.filterMap_cons, List.filterMap_nil, h1, h2]
  have hf := h stableSort stableSort_spec (fun _ => 8) (fun _ => by decide) [4] ["T", "u"] exProcs
    (exProcs_ok _ (Or.inl rfl)) (exTogether _ (Or.inl rfl)) (fun _ _ => 77) (fun _ _ => 77) exUnwritten
    ⟨⟨_, rfl, _, rfl, fun e => nomatch e⟩, trivial⟩ [c1, c2] (.cons ⟨_, h1⟩ (.cons ⟨_, h2⟩ .nil))
  rw [← hc] at hf
  revert hf
  decide +kernel

end Verif.Props
