import Verif.Model.Collection
import Verif.Spec.Address
import Verif.Spec.Box
/-
Specification for C96: what a program has to respect when it calls a field collection.
-/
namespace Verif.Collection.Coll
open Verif Verif.Ccoord Verif.Layout

variable {α U : Type}

/-- Calls that make sense on a collection.  Numbers and shapes of components are positive; `push_back` comes before the
initialisation; the pixels given by a program have their own places in the buffer; fields of a global collection are cloned
after its initialisation; entries are written after the initialisation and within the field. -/
def Sane (c : Coll α U) : Op α U → Prop
  | .register _ _ (.num n) _ _ _ => 1 ≤ n
  | .register _ _ (.shape s) _ _ _ => Pos s
  | .registerState _ _ _ n _ _ _ => 1 ≤ n
  | .detached _ _ shape _ _ => Pos shape
  | .reshape _ shape => Pos shape
  | .reshapeTag _ shape _ => Pos shape
  | .pushBack _ _ _ => c.initialised = false
  | .initGlobal dom sub _ strides =>
      (∀ n ∈ (if sub = [] then dom else sub), 0 ≤ n) ∧
      ∀ size, getBufferSize (if sub = [] then dom else sub) strides = .ok size →
        Addressing (if sub = [] then dom else sub) strides size
  | .initGlobalOrder dom sub _ _ => ∀ n ∈ (if sub = [] then dom else sub), 0 ≤ n
  | .clone _ _ _ => c.global = true → c.initialised = true
  | .write name i _ => ∀ f, c.fields.find name = some f →
      c.initialised = true ∧ (i : Int) < f.nbComp * f.nbSub * c.nbBuf + f.pad
  | _ => True

/-- All calls of a program make sense in the state in which they are made. -/
def SaneProgram (next : Coll α U → Op α U → Coll α U) (c : Coll α U) : List (Op α U) → Prop
  | [] => True
  | op :: ops => c.Sane op ∧ SaneProgram next (next c op) ops

end Verif.Collection.Coll
