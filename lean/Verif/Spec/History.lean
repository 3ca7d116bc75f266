/-
What a variable with memory is: a present value and everything it held before.  Nothing here refers to
the model of state fields.
-/
namespace Verif.Spec

/-- A value and its unbounded past, most recent first. -/
structure History (β : Type) where
  now : β
  past : List β

namespace History
variable {β : Type}

/-- Change the present value. -/
def modify (h : History β) (g : β → β) : History β := { h with now := g h.now }

/-- Start a new step: the present value joins the past; the new present value is the one that is
`n` steps old from now on (its storage is reused). -/
def advance (h : History β) (n : Nat) : History β :=
  { now := (h.now :: h.past)[n]?.getD h.now, past := h.now :: h.past }

/-- The value `k` steps ago; `k = 0` is the present one. -/
def ago (h : History β) (k : Nat) : Option β := (h.now :: h.past)[k]?

end History
end Verif.Spec
