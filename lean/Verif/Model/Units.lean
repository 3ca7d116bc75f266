import Verif.Model.Basic
/-
Units: `/repo/src/libmugrid/units.cc`, `units.hh`, and `physics_domain.cc`, `physics_domain.hh`.
-/
namespace Verif.Units
open Verif

/-- The values of `Int = int`, grid_common.hh 84. -/
def InInt (x : Int) : Prop := -2147483648 ≤ x ∧ x < 2147483648

instance (x : Int) : Decidable (InInt x) := inferInstanceAs (Decidable (_ ∧ _))

/-- A result of signed arithmetic: overflow is undefined.  The operations of units.cc 40-240 on `int`. -/
def chk (x : Int) : Res Int := if InInt x then .ok x else .ub

/-- `compute_gcd_worker`, units.cc 51-83, on natural numbers (the arguments are below 2^31, so that
nothing wraps and the conversion of the result to `Int` is exact). -/
def gcdWorker (a b : Nat) : Nat :=
  if a = b then a
  else if a = 0 then b
  else if b = 0 then a
  else if a &&& 1 = 0 then
    if b &&& 1 = 0 then gcdWorker (a >>> 1) (b >>> 1) <<< 1
    else gcdWorker (a >>> 1) b
  else if b &&& 1 = 0 then gcdWorker a (b >>> 1)
  else if b < a then gcdWorker ((a - b) >>> 1) b
  else gcdWorker ((b - a) >>> 1) a
termination_by a + b
decreasing_by all_goals simp only [Nat.shiftRight_eq_div_pow, Nat.pow_one]; omega

/-- `compute_gcd`, units.cc 89-94.  `std::abs` of the least integer is undefined. -/
def computeGcd (a b : Int) : Res Int :=
  if a = -2147483648 ∨ b = -2147483648 then .ub else .ok (gcdWorker a.natAbs b.natAbs)

/-- `UnitExponent`, units.hh 86-144. -/
structure UnitExponent where
  num : Int
  den : Int
  deriving DecidableEq, Repr

namespace UnitExponent

/-- The default constructor, units.hh 89, with the member initialisers 142-143: 0/0. -/
def default' : UnitExponent := ⟨0, 0⟩

/-- `reduce`, units.cc 174-180; dividing by a zero gcd is undefined. -/
def reduce (e : UnitExponent) : Res UnitExponent := do
  let g ← computeGcd e.num e.den
  let g' := (if e.den < 0 then -1 else 1) * g
  if g' = 0 then .ub else pure ⟨e.num.tdiv g', e.den.tdiv g'⟩

/-- The constructor, units.cc 100-106. -/
def mk' (n d : Int) : Res UnitExponent :=
  if d = 0 then .throw .unitError else reduce ⟨n, d⟩

/-- `operator+` and `operator-`, units.cc 126-145. -/
def add (a b : UnitExponent) : Res UnitExponent := if a ≠ b then .throw .unitError else .ok a

/-- `operator*`, units.cc 148-154: adds the exponents. -/
def mul (a b : UnitExponent) : Res UnitExponent := do
  let p ← chk (a.num * b.den)
  let q ← chk (b.num * a.den)
  let n ← chk (p + q)
  let d ← chk (a.den * b.den)
  mk' n d

/-- `operator/`, units.cc 157-163: subtracts the exponents. -/
def div (a b : UnitExponent) : Res UnitExponent := do
  let p ← chk (a.num * b.den)
  let q ← chk (b.num * a.den)
  let n ← chk (p - q)
  let d ← chk (a.den * b.den)
  mk' n d

/-- `operator<`, units.cc 120-123. -/
def lt (a b : UnitExponent) : Res Bool := do
  let d ← div a b
  pure (decide (d.num < 0))

end UnitExponent

/-- `Unit`, units.hh 147-292: the exponents (an array of seven) and the tag. -/
structure MUnit where
  units : List UnitExponent
  tag : Int
  deriving DecidableEq, Repr

namespace MUnit

/-- Entry by entry combination: the loops of units.cc 397-399, 413-415, 429-431, 439-441. -/
def zipOp (f : UnitExponent → UnitExponent → Res UnitExponent) :
    List UnitExponent → List UnitExponent → Res (List UnitExponent)
  | a :: as, b :: bs => do
      let c ← f a b
      let cs ← zipOp f as bs
      pure (c :: cs)
  | _, _ => .ok []

/-- `operator+` and `operator-`, units.cc 393-423 (the exception is replaced by another one of the same
class). -/
def add (u v : MUnit) : Res MUnit :=
  if u.tag ≠ v.tag then .throw .unitError
  else do
    let us ← zipOp UnitExponent.add u.units v.units
    pure ⟨us, u.tag⟩

/-- `operator*`, units.cc 426-433, with `check_tags`, 364-373. -/
def mul (u v : MUnit) : Res MUnit :=
  if u.tag ≠ v.tag then .throw .unitError
  else do
    let us ← zipOp UnitExponent.mul u.units v.units
    pure ⟨us, u.tag⟩

/-- `operator/`, units.cc 436-443. -/
def div (u v : MUnit) : Res MUnit :=
  if u.tag ≠ v.tag then .throw .unitError
  else do
    let us ← zipOp UnitExponent.div u.units v.units
    pure ⟨us, u.tag⟩

/-- `operator<` of `std::array`: lexicographical comparison with `operator<` of the elements.
Used at units.cc 384. -/
def ltList : List UnitExponent → List UnitExponent → Res Bool
  | a :: as, b :: bs => do
      let x ← a.lt b
      if x then pure true
      else
        let y ← b.lt a
        if y then pure false else ltList as bs
  | [], _ :: _ => .ok true
  | _, [] => .ok false

/-- `operator<`, units.cc 384-390. -/
def lt (u v : MUnit) : Res Bool :=
  if u.tag ≠ v.tag then .ok (decide (u.tag < v.tag)) else ltList u.units v.units

/-- `operator==`, units.cc 376-378. -/
def eq (u v : MUnit) : Bool := u.tag == v.tag && u.units == v.units

/-- `Unit(tag)`, units.cc 446-452, `unitless`, 262-265, and `strain`, 327-329. -/
def unitless (tag : Int) : MUnit := ⟨List.replicate 7 ⟨0, 1⟩, tag⟩

/-- The base units `length`, `mass`, `time`, `temperature`, `current`, `luminous_intensity`, `amount`,
units.cc 268-314: exponent one at position 0, …, 6. -/
def base (i : Nat) (tag : Int) : MUnit := ⟨(List.replicate 7 ⟨0, 1⟩).set i ⟨1, 1⟩, tag⟩

/-- `force`, units.cc 317-319. -/
def force (tag : Int) : Res MUnit := do
  let a ← (base 1 tag).mul (base 0 tag)
  let b ← a.div (base 2 tag)
  b.div (base 2 tag)

/-- `stress`, units.cc 322-324. -/
def stress (tag : Int) : Res MUnit := do
  let f ← force tag
  let a ← f.div (base 0 tag)
  a.div (base 0 tag)

end MUnit

/-- `PhysicsDomain`, physics_domain.hh 48-101. -/
structure PhysicsDomain where
  rank : Nat
  input : MUnit
  output : MUnit
  name : String
  deriving DecidableEq, Repr

namespace PhysicsDomain

/-- The energy density of the check, physics_domain.cc 45-47. -/
def energyDensity : Res MUnit := do
  let a ← (MUnit.base 0 0).mul (MUnit.base 2 0)
  let b ← a.mul (MUnit.base 2 0)
  (MUnit.base 1 0).div b

/-- The constructor, physics_domain.cc 42-56; the second component tells whether the warning is
printed. -/
def mk' (rank : Nat) (input output : MUnit) (name : String) : Res (PhysicsDomain × Bool) := do
  let p ← input.mul output
  let e ← energyDensity
  pure (⟨rank, input, output, name⟩, !(p.eq e))

/-- `operator<`, physics_domain.cc 63-66, of `std::tuple<Uint, Unit, Unit>`. -/
def lt (a b : PhysicsDomain) : Res Bool :=
  if a.rank < b.rank then .ok true
  else if b.rank < a.rank then .ok false
  else do
    let x ← a.input.lt b.input
    if x then pure true
    else
      let y ← b.input.lt a.input
      if y then pure false else a.output.lt b.output

/-- `operator==`, physics_domain.cc 85-88: the name is not compared. -/
def eq (a b : PhysicsDomain) : Bool :=
  a.rank == b.rank && a.input.eq b.input && a.output.eq b.output

/-- `mechanics`, physics_domain.cc 69-72. -/
def mechanics (tag : Int) : Res (PhysicsDomain × Bool) := do
  let s ← MUnit.stress tag
  mk' 2 (MUnit.unitless tag) s "mechanics"

/-- `heat`, physics_domain.cc 75-80. -/
def heat (tag : Int) : Res (PhysicsDomain × Bool) := do
  let i ← (MUnit.base 3 tag).div (MUnit.base 0 tag)
  let a ← (MUnit.base 1 tag).div (MUnit.base 2 tag)
  let b ← a.div (MUnit.base 2 tag)
  let o ← b.div (MUnit.base 2 tag)
  mk' 1 i o "heat"

end PhysicsDomain
end Verif.Units
