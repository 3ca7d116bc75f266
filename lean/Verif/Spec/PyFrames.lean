import Verif.Model.PyFrames
import Verif.Spec.FrameObjects
/-
What is expected of frames and iterators in python.
-/
namespace Verif
open Verif.NetCDF

/-- What the calls `next` of iterator number `k` have given, among what the steps have given. -/
def nextsOf {C O : Type} (k : Nat) : List (PyFrameStep C) → List O → List O
  | .next j :: xs, o :: os => if j = k then o :: nextsOf k xs os else nextsOf k xs os
  | _ :: xs, _ :: os => nextsOf k xs os
  | _, _ => []

/-- The step is `next` of iterator number `k`. -/
def NetCDF.PyFrameStep.isNext {C : Type} (k : Nat) : PyFrameStep C → Bool
  | .next j => j = k
  | _ => false

variable {V : Type}

/-- A table, with the rows that frame objects stand for, and the rows that the iterators will still give. -/
structure FrameTable (V : Type) where
  table : Table V
  rows : List Nat
  rest : List (List Nat)

/-- One step; `none` is an exception. -/
def FrameTable.step (late : Bool) (known : List String) (s : FrameTable V) : PyFrameStep (String → V) → Option (PyFrameOut Nat) × FrameTable V
  | .len => (some (.number s.table.nb), s)
  | .getitem i =>
      match handedRow late s.table.nb i with
      | some row => (some (.frame row.toNat), ⟨s.table, s.rows ++ [row.toNat], s.rest⟩)
      | none => (none, s)
  | .append =>
      (some (.frame s.table.nb.toNat), ⟨(s.table.step known .appendFrame).2, s.rows ++ [s.table.nb.toNat], s.rest⟩)
  | .use h u =>
      match s.rows[h]? with
      | some row => (if (s.table.step known (u.op row)).1 then some .done else none,
          ⟨(s.table.step known (u.op row)).2, s.rows, s.rest⟩)
      | none => (none, s)
  | .compute c => (some .done, ⟨(s.table.step known (.compute c)).2, s.rows, s.rest⟩)
  | .iter => (some .done, ⟨s.table, s.rows, s.rest ++ [List.range s.table.nb.toNat]⟩)
  | .reversed => (some .done, ⟨s.table, s.rows, s.rest ++ [(List.range s.table.nb.toNat).reverse]⟩)
  | .next k =>
      match s.rest[k]? with
      | some (row :: rows) => (some (.frame row), ⟨s.table, s.rows ++ [row], s.rest.set k rows⟩)
      | _ => (some .stop, s)

def FrameTable.run (late : Bool) (known : List String) : FrameTable V → List (PyFrameStep (String → V)) → List (Option (PyFrameOut Nat)) × FrameTable V
  | s, [] => ([], s)
  | s, x :: xs => ((s.step late known x).1 :: (FrameTable.run late known (s.step late known x).2 xs).1,
      (FrameTable.run late known (s.step late known x).2 xs).2)

/-- The step uses only objects that the program has, reads only what has been written, and, unless `late` is set, is not `file[n]`
for a file with `n` frames. -/
def FrameTable.Fit (late : Bool) (known : List String) (s : FrameTable V) : PyFrameStep (String → V) → Prop
  | .getitem i => late = true ∨ i ≠ s.table.nb
  | .use h u => ∃ row, s.rows[h]? = some row ∧ s.table.ReadsFilled known (u.op row)
  | .next k => k < s.rest.length
  | _ => True

def FrameTable.Fits (late : Bool) (known : List String) : FrameTable V → List (PyFrameStep (String → V)) → Prop
  | _, [] => True
  | s, x :: xs => s.Fit late known x ∧ FrameTable.Fits late known (s.step late known x).2 xs

/-- A step gives what is expected. -/
def Gives : Res (PyFrameOut Int) → Option (PyFrameOut Nat) → Prop
  | .ok .done, some .done => True
  | .ok (.number n), some (.number m) => n = m
  | .ok (.frame f), some (.frame row) => f = row
  | .ok .stop, some .stop => True
  | .throw e, none => e = .fileIOError
  | _, _ => False

/-- The same step on memory and on values. -/
inductive SameStep {C D : Type} (R : C → D → Prop) : PyFrameStep C → PyFrameStep D → Prop
  | len : SameStep R .len .len
  | getitem (i : Int) : SameStep R (.getitem i) (.getitem i)
  | append : SameStep R .append .append
  | use (h : Nat) (u : FrameUse) : SameStep R (.use h u) (.use h u)
  | compute {c : C} {d : D} (hc : R c d) : SameStep R (.compute c) (.compute d)
  | iter : SameStep R .iter .iter
  | reversed : SameStep R .reversed .reversed
  | next (k : Nat) : SameStep R (.next k) (.next k)

/-- Something holds of the use of a frame object. -/
def NetCDF.PyFrameStep.Uses {C : Type} (P : FrameUse → Prop) : PyFrameStep C → Prop
  | .use _ u => P u
  | _ => True

/-! ### Several programs, one after the other -/

section
variable {α : Type}

/-- A python program that opens an existing file, see `FrameSession`. -/
structure PyFrameSession (α : Type) where
  ranks : List FileRank
  mode : OpenMode
  mem : Memory α
  cur : String → Values α
  steps : List (PyFrameStep (Memory α))
  ssteps : List (PyFrameStep (String → Values α))

/-- The program is one that can use a file with the data of `rs`. -/
structure PyFrameSession.Ok (dom : List Int) (rs : List FileRank) (u : PyFrameSession α) : Prop where
  ok : ProgramOk dom u.ranks
  data : SameData rs u.ranks
  mode : u.mode = .read ∨ u.mode = .append
  mem : ProgramHolds u.ranks u.mem u.cur
  same : List.Forall₂ (SameStep (ProgramHolds u.ranks)) u.steps u.ssteps
  names : ∀ x ∈ u.steps, x.Uses fun f => NoLocalNames u.ranks (f.op (C := Memory α) 0)
  refused : u.mode = .read → ∀ x ∈ u.steps, x.Uses fun f => RefusedBy u.ranks (f.op (C := Memory α) 0)

/-- What the program sees. -/
def PyFrameSession.table (u : PyFrameSession α) (cell : Int → String → Option (Values α)) (nb : Int) : FrameTable (Values α) :=
  ⟨⟨u.mode = .append, nb, u.cur, cell⟩, [], []⟩

/-- The programs can use the file one after the other, see `UsesOk`. -/
def PySessionsOk (late : Bool) (dom : List Int) (rs : List FileRank) : (Int → String → Option (Values α)) → List (PyFrameSession α) → Prop
  | _, [] => True
  | cell, u :: us => u.Ok dom rs ∧
      (u.mode = .append → ∀ r ∈ rs, ∀ e ∈ r.entries, ∀ l total, e.1 = some (l, total) →
        ∃ e' ∈ r.entries, e'.1 = some (l, total) ∧ HasCell cell e'.2.1) ∧
      ∀ nb, NbFrames cell nb → (u.table cell nb).Fits late (storedNames rs) u.ssteps ∧
        PySessionsOk late dom rs ((u.table cell nb).run late (storedNames rs) u.ssteps).2.table.cell us

/-- The programs use the file one after the other. -/
def runPySessions : Disk α → List (PyFrameSession α) → List (List (Res (PyFrameOut Int)) × Disk α × World α)
  | _, [] => []
  | d, u :: us =>
      let r := usePyFrames u.mode (u.ranks.map FileRank.colls) d u.mem u.steps
      r :: runPySessions r.2.1 us

/-- Each step of each program gives what is expected of the table with the values that have been written so far, and the fields
have the values that the table gives. -/
def PySessionsBehave (late : Bool) (names : List String) : (Int → String → Option (Values α)) → List (PyFrameSession α) →
    List (List (Res (PyFrameOut Int)) × Disk α × World α) → Prop
  | _, [], rs => rs = []
  | _, _ :: _, [] => False
  | cell, u :: us, r :: rs => ∃ nb, NbFrames cell nb ∧
      let t := (u.table cell nb).run late names u.ssteps
      List.Forall₂ Gives r.1 t.1 ∧ ProgramHolds u.ranks r.2.2.mem t.2.table.cur ∧ r.2.2.sess.nbFrames = t.2.table.nb ∧
        PySessionsBehave late names t.2.table.cell us rs

end
end Verif
