import Mathlib.Data.List.Infix
/-
Specification vocabulary: texts that can follow a separator "__".
-/
namespace Verif

/-- The text contains no double underscore and does not begin with an underscore: read behind
another underscore it contains no double underscore. -/
def Clean (s : String) : Prop := ¬ ['_', '_'] <:+: '_' :: s.toList

instance (s : String) : Decidable (Clean s) := inferInstanceAs (Decidable (¬ _))

end Verif
