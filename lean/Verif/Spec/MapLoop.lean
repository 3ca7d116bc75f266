import Verif.Model.MapLoop
/-
What a loop over several maps is meant to do: every point (pixel or sub-point) on its own.
-/
namespace Verif.Collection

variable {α : Type}

/-- One statement at one point: `env x` are the values of the field `x` there, `xs` the fields of the maps. -/
def pointStep (xs : List String) (st : LoopStmt α) (env : String → List α) : String → List α :=
  match xs[st.target]? with
  | some x => fun y => if y = x then st.value (xs.map env) else env y
  | none => env

/-- The body at one point. -/
def pointRun (xs : List String) (body : List (LoopStmt α)) (env : String → List α) : String → List α :=
  body.foldl (fun e st => pointStep xs st e) env

/-- A statement with a target whose values have the right number of scalars, for entries with `ks` scalars. -/
def LoopStmt.Fits (ks : List Nat) (st : LoopStmt α) : Prop :=
  st.target < ks.length ∧
    ∀ es : List (List α), es.map List.length = ks → ks[st.target]? = some (st.value es).length

end Verif.Collection
