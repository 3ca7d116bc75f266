import Verif.Model.Units
/-
The text of a unit: `superscript` and the `operator<<` of `UnitExponent` and `Unit`, units.cc 182-249
and 455-484.  Texts are lists of characters (in the code, their UTF-8 encoding).
-/
namespace Verif.Units
open Verif

/-- The decimal text of an integer, as `operator<<` of the standard library prints it (trusted).
Used at units.cc 240 and 456. -/
def intText (n : Int) : List Char :=
  if n < 0 then '-' :: Nat.toDigits 10 n.natAbs else Nat.toDigits 10 n.natAbs

/-- The `switch` of `superscript`, units.cc 187-236. -/
def supChar : Char → Res Char
  | '0' => .ok '⁰'
  | '1' => .ok '¹'
  | '2' => .ok '²'
  | '3' => .ok '³'
  | '4' => .ok '⁴'
  | '5' => .ok '⁵'
  | '6' => .ok '⁶'
  | '7' => .ok '⁷'
  | '8' => .ok '⁸'
  | '9' => .ok '⁹'
  | '-' => .ok '⁻'
  | _ => .throw .runtimeError

/-- The loop of `superscript`, units.cc 186-237. -/
def supText : List Char → Res (List Char)
  | [] => .ok []
  | c :: cs => do
      let d ← supChar c
      let ds ← supText cs
      pure (d :: ds)

/-- `operator<<` of `UnitExponent`, units.cc 240-249, with `superscript`, 182-238. -/
def UnitExponent.text (e : UnitExponent) : Res (List Char) :=
  if e.den = 1 then
    if e.num ≠ 1 then supText (intText e.num) else .ok []
  else .ok (['^', '('] ++ intText e.num ++ ['/'] ++ intText e.den ++ [')'])

/-- The names of the base units, units.cc 457-458. -/
def unitNames : List (List Char) :=
  [['l'], ['m'], ['t'], ['T'], ['I'], ['I', 'ᵥ'], ['m', 'o', 'l']]

/-- The loop of `operator<<` of `Unit`, units.cc 460-471: the text and the flag `first` after it. -/
def textLoop : Bool → List (List Char) → List UnitExponent → Res (List Char × Bool)
  | first, n :: ns, e :: es =>
      if e.num ≠ 0 then do
        let t ← e.text
        let r ← textLoop false ns es
        pure ((if first then [] else ['·']) ++ (n ++ (t ++ r.1)), r.2)
      else textLoop first ns es
  | first, _, _ => .ok ([], first)

/-- `operator<<` of `Unit`, units.cc 456-484. -/
def MUnit.text (u : MUnit) : Res (List Char) := do
  let r ← textLoop true unitNames u.units
  let r' := if u.tag ≠ 0 then
      if r.2 then (r.1, false)
      else (r.1 ++ ([',', ' ', 't', 'a', 'g', '('] ++ intText u.tag ++ [')']), false)
    else r
  if r'.2 then pure (r'.1 ++ ['n', 'o', ' ', 'u', 'n', 'i', 't', ' ', 'p', 'r', 'o', 'v', 'i', 'd', 'e', 'd'])
  else pure r'.1

end Verif.Units
