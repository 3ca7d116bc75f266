import Verif.Model.FrameObjects
import Verif.Spec.FileRanks
/-
What is expected of a program that uses the rows of a table through frame objects.
-/
namespace Verif
open Verif.NetCDF

variable {V : Type}

/-- What follows if the first part succeeds. -/
def Table.after (r : Bool × Table V) (k : Table V → Bool × Table V) : Bool × Table V :=
  if r.1 then k r.2 else r

/-- A loop over some rows. -/
def Table.forRows (body : Nat → Table V → Bool × Table V) : List Nat → Table V → Bool × Table V
  | [], t => (true, t)
  | row :: rows, t => Table.after (body row t) (Table.forRows body rows)

/-- The row that `file[i]` is expected to give.  If `late` is set, `file[n]` of a file with `n` frames gives the row that is appended
next. -/
def handedRow (late : Bool) (nb i : Int) : Option Int := if late = true ∧ i = nb then some nb else meantFrame nb i

/-- What a program is expected to do with a table: whether it ends without an exception, and the table afterwards.  A frame object
stands for a row, and a loop over the file goes through the rows that there are when it begins. -/
def Table.exec (late : Bool) (known : List String) : FrameProg (String → V) → List Nat → Table V → Bool × Table V
  | .done, _, t => (true, t)
  | .take i p, rows, t =>
      match handedRow late t.nb i with
      | some row => Table.exec late known p (row.toNat :: rows) t
      | none => (false, t)
  | .append p, rows, t => Table.exec late known p (t.nb.toNat :: rows) (t.step known .appendFrame).2
  | .use h u p, rows, t =>
      match rows[h]? with
      | some row => Table.after (t.step known (u.op row)) (Table.exec late known p rows)
      | none => (false, t)
  | .compute c p, rows, t => Table.after (t.step known (.compute c)) (Table.exec late known p rows)
  | .forEach body p, rows, t =>
      Table.after (Table.forRows (fun row => Table.exec late known body (row :: rows)) (List.range t.nb.toNat) t)
        (Table.exec late known p rows)
  | .attempt body p, rows, t => Table.exec late known p rows (Table.exec late known body rows t).2

/-- For the loop over some rows: `ok` holds whenever the body begins. -/
def Table.FitsRows (body : Nat → Table V → Bool × Table V) (ok : Nat → Table V → Prop) : List Nat → Table V → Prop
  | [], _ => True
  | row :: rows, t => ok row t ∧ ((body row t).1 = true → Table.FitsRows body ok rows (body row t).2)

/-- The program reads only what has been written, uses only frame objects that it has, and, unless `late` is set, does not ask for
`file[n]` when there are `n` frames. -/
def Table.Fits (late : Bool) (known : List String) : FrameProg (String → V) → List Nat → Table V → Prop
  | .done, _, _ => True
  | .take i p, rows, t => (late = true ∨ i ≠ t.nb) ∧ ∀ row, handedRow late t.nb i = some row → Table.Fits late known p (row.toNat :: rows) t
  | .append p, rows, t => Table.Fits late known p (t.nb.toNat :: rows) (t.step known .appendFrame).2
  | .use h u p, rows, t => ∃ row, rows[h]? = some row ∧ t.ReadsFilled known (u.op row) ∧
      ((t.step known (u.op row)).1 = true → Table.Fits late known p rows (t.step known (u.op row)).2)
  | .compute c p, rows, t => Table.Fits late known p rows (t.step known (.compute c)).2
  | .forEach body p, rows, t =>
      Table.FitsRows (fun row => Table.exec late known body (row :: rows)) (fun row => Table.Fits late known body (row :: rows))
        (List.range t.nb.toNat) t ∧
      ((Table.forRows (fun row => Table.exec late known body (row :: rows)) (List.range t.nb.toNat) t).1 = true →
        Table.Fits late known p rows (Table.forRows (fun row => Table.exec late known body (row :: rows)) (List.range t.nb.toNat) t).2)
  | .attempt body p, rows, t => Table.Fits late known body rows t ∧ Table.Fits late known p rows (Table.exec late known body rows t).2

/-- The same program on memory and on values. -/
inductive SameProg {C D : Type} (R : C → D → Prop) : FrameProg C → FrameProg D → Prop
  | done : SameProg R .done .done
  | take (i : Int) {p q} (h : SameProg R p q) : SameProg R (.take i p) (.take i q)
  | append {p q} (h : SameProg R p q) : SameProg R (.append p) (.append q)
  | use (k : Nat) (u : FrameUse) {p q} (h : SameProg R p q) : SameProg R (.use k u p) (.use k u q)
  | compute {c : C} {d : D} (hc : R c d) {p q} (h : SameProg R p q) : SameProg R (.compute c p) (.compute d q)
  | forEach {b b' p q} (hb : SameProg R b b') (h : SameProg R p q) : SameProg R (.forEach b p) (.forEach b' q)
  | attempt {b b' p q} (hb : SameProg R b b') (h : SameProg R p q) : SameProg R (.attempt b p) (.attempt b' q)

/-- Something holds of all uses of frame objects in a program. -/
def NetCDF.FrameProg.Uses {C : Type} (P : FrameUse → Prop) : FrameProg C → Prop
  | .done => True
  | .take _ p => p.Uses P
  | .append p => p.Uses P
  | .use _ u p => P u ∧ p.Uses P
  | .compute _ p => p.Uses P
  | .forEach b p => b.Uses P ∧ p.Uses P
  | .attempt b p => b.Uses P ∧ p.Uses P

/-- Do something for the frames `0, …, n - 1`, in this order, until there is an exception. -/
def inOrder {W : Type} (f : Nat → W → Res Unit × W) : List Nat → W → Res Unit × W
  | [], w => (.ok (), w)
  | k :: ks, w => unlessThrown (f k w) (inOrder f ks)

/-! ### Several programs, one after the other -/

section
variable {α : Type}

/-- A program with frame objects that opens an existing file: its processes, the mode, the memory of its fields and the values
there, and what it does; `sprog` is the same in terms of values. -/
structure FrameSession (α : Type) where
  ranks : List FileRank
  mode : OpenMode
  mem : Memory α
  cur : String → Values α
  prog : FrameProg (Memory α)
  sprog : FrameProg (String → Values α)

/-- The program is one that can use a file with the data of `rs`. -/
structure FrameSession.Ok (dom : List Int) (rs : List FileRank) (u : FrameSession α) : Prop where
  ok : ProgramOk dom u.ranks
  data : SameData rs u.ranks
  mode : u.mode = .read ∨ u.mode = .append
  mem : ProgramHolds u.ranks u.mem u.cur
  same : SameProg (ProgramHolds u.ranks) u.prog u.sprog
  names : u.prog.Uses fun f => NoLocalNames u.ranks (f.op (C := Memory α) 0)
  refused : u.mode = .read → u.prog.Uses fun f => RefusedBy u.ranks (f.op (C := Memory α) 0)

/-- What the program sees. -/
def FrameSession.table (u : FrameSession α) (cell : Int → String → Option (Values α)) (nb : Int) : Table (Values α) :=
  ⟨u.mode = .append, nb, u.cur, cell⟩

/-- The programs can use the file one after the other, see `UsesOk`. -/
def SessionsOk (late : Bool) (dom : List Int) (rs : List FileRank) : (Int → String → Option (Values α)) → List (FrameSession α) → Prop
  | _, [] => True
  | cell, u :: us => u.Ok dom rs ∧
      (u.mode = .append → ∀ r ∈ rs, ∀ e ∈ r.entries, ∀ l total, e.1 = some (l, total) →
        ∃ e' ∈ r.entries, e'.1 = some (l, total) ∧ HasCell cell e'.2.1) ∧
      ∀ nb, NbFrames cell nb → (u.table cell nb).Fits late (storedNames rs) u.sprog [] ∧
        SessionsOk late dom rs ((u.table cell nb).exec late (storedNames rs) u.sprog []).2.cell us

/-- The programs use the file one after the other. -/
def runSessions : Disk α → List (FrameSession α) → List (Res Unit × Disk α × World α)
  | _, [] => []
  | d, u :: us =>
      let r := useFrames u.mode (u.ranks.map FileRank.colls) d u.mem u.prog
      r :: runSessions r.2.1 us

/-- Each program ends as expected of the table with the values that have been written so far, and its fields have the values that
the table gives. -/
def SessionsBehave (late : Bool) (names : List String) :
    (Int → String → Option (Values α)) → List (FrameSession α) → List (Res Unit × Disk α × World α) → Prop
  | _, [], rs => rs = []
  | _, _ :: _, [] => False
  | cell, u :: us, r :: rs => ∃ nb, NbFrames cell nb ∧
      let t := (u.table cell nb).exec late names u.sprog []
      Props.AsExpected r.1 t.1 ∧ ProgramHolds u.ranks r.2.2.mem t.2.cur ∧ r.2.2.sess.nbFrames = t.2.nb ∧
        SessionsBehave late names t.2.cell us rs

end
end Verif
