import Verif.Model.Ccoord
/-
Model of `/repo/src/libmugrid/raw_memory_operations.{hh,cc}`: the odometer iteration over a box of
multi-indices and the strided copy between two buffers.
-/
namespace Verif.RawMemory
open Verif Verif.Ccoord

/-- The carry loop of `CartesianContainer::iterator::operator++`, raw_memory_operations.hh 96-100:
`p` is the previous axis of the order, the list holds the remaining ones. -/
def carryLoop (shape : List Int) : Nat → List Nat → List Int → Res (List Int)
  | _, [], idx => .ok idx
  | p, a :: as, idx => do
      let x ← at! idx p
      let n ← at! shape p
      let y ← at! idx a
      if n = 0 then .ub
      else carryLoop shape a as (idx.set a (y + Int.tdiv x n))

/-- The reduction loop of `operator++`, raw_memory_operations.hh 101-103: `index[i] %= shape[i]`. -/
def modLoop : List Int → List Int → Res (List Int)
  | n :: shape, x :: idx =>
      if n = 0 then .ub
      else do
        let rest ← modLoop shape idx
        pure (Int.tmod x n :: rest)
  | _, [] => .ok []
  | [], _ :: _ => .ub

/-- `CartesianContainer::iterator::operator++` on the multi-index, raw_memory_operations.hh 92-105.
(The counter is the number of steps, see `visit`.)  The access `axes_order[0]` is unchecked. -/
def incr (shape : List Int) (axes : List Nat) (idx : List Int) : Res (List Int) :=
  match axes with
  | [] => .ub
  | a :: as => do
      let x ← at! idx a
      let idx' ← carryLoop shape a as (idx.set a (x + 1))
      modLoop shape idx'

/-- `n` rounds of the loop `for (auto && index : container) { body }`, raw_memory_operations.hh
107-122: the body sees the current index, then `++` is applied, also after the last round.  The
state of the body is threaded through. -/
def visitLoop {σ : Type} (shape : List Int) (axes : List Nat) (body : List Int → σ → Res σ) :
    Nat → List Int → σ → Res σ
  | 0, _, s => .ok s
  | n + 1, idx, s => do
      let s' ← body idx s
      let idx' ← incr shape axes idx
      visitLoop shape axes body n idx' s'

/-- Range-based `for` over a `CartesianContainer`, raw_memory_operations.hh 85-122: starts at the zero
index and runs `prod(shape)` rounds (`prod`: 49-52, with `size_t` result; a negative product becomes
a huge count, which ends in undefined behaviour). -/
def visit {σ : Type} (shape : List Int) (axes : List Nat) (body : List Int → σ → Res σ) (s : σ) :
    Res σ :=
  if getSize shape < 0 then .ub
  else visitLoop shape axes body (getSize shape).toNat (List.replicate shape.length 0) s

/-- The multi-indices visited by a loop over a `CartesianContainer`.  raw_memory_operations.hh 85-122. -/
def visited (shape : List Int) (axes : List Nat) : Res (List (List Int)) :=
  visit shape axes (fun idx acc => .ok (acc ++ [idx])) []

/-- Memory around a pointer: the cell at each offset, `none` if it may not be accessed.
The pointers of raw_memory_operations.hh 129-156. -/
abbrev Mem (α : Type) := Int → Option α

/-- A write through a pointer.  raw_memory_operations.hh 150-154. -/
def Mem.write {α : Type} (m : Mem α) (a : Int) (x : α) : Mem α :=
  fun b => if b = a then some x else m b

/-- `linear_index`, raw_memory_operations.hh 55-58, as an offset (the wrap-around of `size_t` and of
pointer arithmetic cancel for negative strides).  Reads `strides` only as far as `index` goes. -/
def linearIndex : List Int → List Int → Int
  | c :: idx, s :: strides => c * s + linearIndex idx strides
  | _, _ => 0

/-- The body of the loop of `strided_copy`, raw_memory_operations.hh 150-154. -/
def copyBody {α : Type} (inStrides outStrides : List Int) (inp : Mem α) (idx : List Int)
    (out : Mem α) : Res (Mem α) :=
  match inp (linearIndex idx inStrides), out (linearIndex idx outStrides) with
  | some x, some _ => .ok (out.write (linearIndex idx outStrides) x)
  | _, _ => .ub

/-- `strided_copy`, raw_memory_operations.hh 129-156.  Input and output buffer are disjoint. -/
def stridedCopy {α : Type} (srt : SortFn) (shape inStrides outStrides : List Int) (inp out : Mem α) :
    Res (Mem α) :=
  if shape.length ≠ inStrides.length then .throw .runtimeError
  else if shape.length ≠ outStrides.length then .throw .runtimeError
  else do
    let axes ← computeAxesOrder srt shape outStrides
    visit shape axes (copyBody inStrides outStrides inp) out

end Verif.RawMemory
