import Mathlib.Order.Basic
/-
What time stepping with a memory is to compute.
-/
namespace Verif.Props

variable {β : Type}

/-- The values `x t i` (time `t`, entry `i`) follow from those at the `N` times before. -/
def Recurrence (G : Nat → List β → β) (N : Nat) (x : Nat → Nat → β) : Prop :=
  ∀ t i, x (t + N + 1) i = G i ((List.range N).map fun k => x (t + N - k) i)

end Verif.Props
