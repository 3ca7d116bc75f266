import Verif.Model.Basic
/-
`Communicator`, `/repo/src/libmugrid/communicator.hh` 114-375 (the MPI version).  A collective call is one
function of the arguments of all ranks.  The MPI functions are the trusted primitives: `MPI_Scan` with
`MPI_SUM` gives prefix sums, `MPI_Allreduce` with `MPI_MAX`/`MPI_SUM` the maximum/sum, `MPI_Allgather` the
list of the values, and `MPI_Allgatherv` writes the buffer of rank `i` at `displs[i]`.
-/
namespace Verif.Communicator

/-- An `Eigen::Ref<DynMatrix_t<T>>`: shape, distance between two columns in memory and the memory from
`data()` on.  A reference to a part of a larger matrix has an outer stride different from its number of
rows.  communicator.hh 211 and 255. -/
structure MatRef (α : Type) where
  rows : Nat
  cols : Nat
  outer : Nat
  mem : List α

/-- A `DynMatrix_t<T>`: column-major.  communicator.hh 211 and 255. -/
structure Mat (α : Type) where
  rows : Nat
  cols : Nat
  data : List α
  deriving DecidableEq

/-- `arg.size()`.  communicator.hh 255-340. -/
def MatRef.size {α : Type} (m : MatRef α) : Nat := m.rows * m.cols

/-- `cumulative_sum`, communicator.hh 228-236: the result on each rank (`MPI_Scan`). -/
def cumulativeSum {α : Type} [Add α] [Zero α] (args : List α) : List α :=
  (List.range args.length).map (fun r => ((args.take (r + 1)).foldl (· + ·) 0))

/-- The value of the low four bytes of a 64-bit integer read as `int` (little-endian machines):
`MPI_Allgather(&send_buf_size, 1, mpi_type<int>(), …)` sends an `Index_t` as an `int`, communicator.hh
284-285. -/
def lowInt (n : Int) : Int := if n % 4294967296 < 2147483648 then n % 4294967296 else n % 4294967296 - 4294967296

/-- The loop `displs[i + 1] = displs[i] + arg_sizes[i]`, communicator.hh 306-309. -/
def displsFrom (acc : Int) : List Int → List Int
  | [] => []
  | n :: ns => acc :: displsFrom (acc + n) ns

/-- Read the `n` first elements of a buffer; undefined outside.  For the MPI calls of communicator.hh 211-340. -/
def readBuf {α : Type} (mem : List α) (n : Nat) : Res (List α) :=
  if mem.length < n then .ub else .ok (mem.take n)

/-- Write a block into a buffer; undefined outside.  For the MPI calls of communicator.hh 211-340. -/
def writeBuf {α : Type} (buf : List α) (pos : Int) (l : List α) : Res (List α) :=
  if pos < 0 ∨ (buf.length : Int) < pos + l.length then .ub
  else .ok (buf.take pos.toNat ++ l ++ buf.drop (pos.toNat + l.length))

/-- `MPI_Allgatherv`: the block of every rank at its displacement; a receive count differing from the send
count is an error of the program.  Called at communicator.hh 320. -/
def allgatherv {α : Type} : List (MatRef α) → List Int → List Int → List α → Res (List α)
  | [], _, _, buf => .ok buf
  | m :: ms, n :: ns, d :: ds, buf =>
      if n ≠ (m.size : Int) then .ub
      else do
        let block ← readBuf m.mem m.size
        let buf ← writeBuf buf d block
        allgatherv ms ns ds buf
  | _, _, _, _ => .ub

/-- `gather`, communicator.hh 254-331, in a release build (the two assertions are inactive): all ranks get
the same result.  Not modelled: overflow of the `int` sum of the sizes, failures of MPI calls. -/
def gather {α : Type} [Zero α] (args : List (MatRef α)) : Res (Mat α) :=
  let nbRowsMax := (args.map MatRef.rows).foldl max 0
  let argSizes := args.map (fun m => lowInt m.size)
  let nbEntries := argSizes.foldl (· + ·) 0
  let displs := displsFrom 0 argSizes
  if nbRowsMax = 0 ∧ nbEntries = 0 then .ok { rows := 0, cols := 0, data := [] }
  else if nbRowsMax = 0 then .ub
  else do
    let cols := (Int.tdiv nbEntries nbRowsMax).toNat
    let data ← allgatherv args argSizes displs (List.replicate (nbRowsMax * cols) 0)
    pure { rows := nbRowsMax, cols := cols, data := data }

/-- `gather` on one process without MPI or with `MPI_COMM_NULL`, communicator.hh 256-257 and 413-417: the
argument itself (copied element by element into a matrix). -/
def gatherSerial {α : Type} (arg : MatRef α) : Res (Mat α) := do
  let data ← ((List.range arg.cols).flatMap (fun c => (List.range arg.rows).map (fun r => c * arg.outer + r))).mapM
    (fun i => at! arg.mem i)
  pure { rows := arg.rows, cols := arg.cols, data := data }

end Verif.Communicator
