import Verif.Model.Basic
/-
`akantu::zip`, `arange`, `enumerate`, `/repo/src/libmugrid/iterators.hh`, and `ct_sqrt`,
`/repo/src/libmugrid/eigen_tools.hh`.
-/
namespace Verif.Iterators

/-- A container as a range-based `for` sees it: the begin iterator, `++`, `*` and the comparison `!=` with
the end iterator.  As used by iterators.hh. -/
structure Range (σ β : Type) where
  start : σ
  next : σ → σ
  deref : σ → Res β
  ne : σ → Bool

/-- A range-based `for` collecting the values; `none`: not finished within `fuel` steps.
Loops over the containers of iterators.hh. -/
def collect {σ β : Type} (R : Range σ β) : Nat → σ → Option (Res (List β))
  | 0, _ => none
  | fuel + 1, s =>
      if R.ne s then
        match R.deref s with
        | .ok b =>
            match collect R fuel (R.next s) with
            | some (.ok bs) => some (.ok (b :: bs))
            | some (.throw e) => some (.throw e)
            | some .ub => some .ub
            | none => none
        | .throw e => some (.throw e)
        | .ub => some .ub
      else some (.ok [])

/-- A standard sequence container (`std::vector` and the like): iterators are positions.  Dereferencing
outside is undefined.  The containers passed to iterators.hh. -/
def ofList {β : Type} (l : List β) : Range Nat β where
  start := 0
  next := fun k => k + 1
  deref := fun k => at! l k
  ne := fun k => k != l.length

/-- `ZipIterator` over two containers, iterators.hh 123-159 with `tuple::are_not_equal`, 46-67 and 95-98:
`!=` holds only if it holds for all components.  Zips of more containers are nested zips. -/
def zip {σ τ β γ : Type} (R : Range σ β) (S : Range τ γ) : Range (σ × τ) (β × γ) where
  start := (R.start, S.start)
  next := fun s => (R.next s.1, S.next s.2)
  deref := fun s => do
    let b ← R.deref s.1
    let c ← S.deref s.2
    pure (b, c)
  ne := fun s => R.ne s.1 && S.ne s.2

/-- The member `stop` computed by the constructor of `ArangeContainer`, iterators.hh 281-286 (C++ division
and remainder). -/
def arangeStop (start stop step : Int) : Int :=
  if Int.tmod (stop - start) step = 0 then stop
  else start + (1 + Int.tdiv (stop - start) step) * step

/-- `arange(start, stop, step)`, iterators.hh 229-309 and 336-340, with unbounded integers (the template
argument may be signed or unsigned; a loop which does not meet its end overflows or wraps around); a zero
step is a division by zero.  Both iterators have the same step, so `!=` compares the values. -/
def arange (start stop step : Int) : Res (Range Int Int) :=
  if step = 0 then .ub
  else .ok
    { start := start
      next := fun v => v + step
      deref := fun v => .ok v
      ne := fun v => v != arangeStop start stop step }

/-- `ArangeContainer::size`, iterators.hh 299. -/
def arangeSize (start stop step : Int) : Res Int :=
  if step = 0 then .ub else .ok (Int.tdiv (arangeStop start stop step - start) step)

/-- `ArangeContainer::operator[]`, iterators.hh 292-296 (the assertion is inactive in release builds). -/
def arangeAt (start step : Int) (i : Nat) : Int := start + i * step

/-- `enumerate(container, start)`, iterators.hh 347-353: `zip(arange(start, size), container)`. -/
def enumerate {β : Type} (l : List β) (start : Nat) : Res (Range (Int × Nat) (Int × β)) := do
  let a ← arange start l.length 1
  pure (zip a (ofList l))

/-- `enum_zip` of two containers, iterators.hh 372-379. -/
def enumZip {β γ : Type} (l : List β) (m : List γ) (start : Nat) :
    Res (Range (Int × Nat × Nat) (Int × β × γ)) := do
  let a ← arange start l.length 1
  pure (zip a (zip (ofList l) (ofList m)))

/-- Largest value of `Dim_t = int`.  grid_common.hh 69. -/
def intMax : Int := 2147483647

/-- `ct_sqrt(res, l, r)`, eigen_tools.hh 115-127: `none` if the recursion is deeper than `fuel`; the outcome
`ub` for an overflow of `int` (a compile-time error when evaluated at compile time). -/
def ctSqrtAux (res : Int) : Nat → Int → Int → Option (Res Int)
  | 0, _, _ => none
  | fuel + 1, l, r =>
      if l = r then some (.ok r)
      else if intMax < r + l then some .ub
      else
        let mid := Int.tdiv (r + l) 2
        if intMax < mid * mid then some .ub
        else if mid * mid ≥ res then ctSqrtAux res fuel l mid
        else ctSqrtAux res fuel (mid + 1) r

/-- `ct_sqrt(res)`, eigen_tools.hh 129. -/
def ctSqrt (fuel : Nat) (res : Int) : Option (Res Int) := ctSqrtAux res fuel 1 res

end Verif.Iterators
