import Verif.Model.Basic
/-
Model of the frame handling of `/repo/src/libmugrid/file_io_base.{hh,cc}` and of
`FileIONetCDF::handle_frame` (`file_io_netcdf.cc` 424-452).
-/
namespace Verif.FileIO
open Verif

/-- `FileIOBase::operator[]`, file_io_base.cc 45-67: the frame number held by the `FileFrame`, for
a file with `nb` frames. -/
def frameAt (nb i : Int) : Res Int :=
  if i < 0 then
    if nb + i < 0 then .throw .fileIOError
    else if nb + i > nb then .throw .fileIOError
    else .ok (nb + i)
  else if i > nb then .throw .fileIOError
  else .ok i

/-- `FileIOBase::append_frame`, file_io_base.cc 70-74: the number held by the new `FileFrame` and the
new number of frames. -/
def appendFrame (nb : Int) : Int × Int := (nb, nb + 1)

/-- `FileIOBase::size`, file_io_base.cc 90. -/
def size (nb : Int) : Int := nb

/-- `FileIONetCDF::handle_frame(frame, tot_nb_frames)`, file_io_netcdf.cc 429-452. -/
def handleFrame (frame nb : Int) : Res Int :=
  let f := if frame < 0 then nb + frame else frame
  if f ≥ nb then .throw .fileIOError else .ok f

/-- The loop `for (auto && frame : file)`, with `begin`, `end` of file_io_base.cc 80-87 and the
iterator of file_io_base.hh 488-530 (`!=` compares frame indices, `*` calls `operator[]`): the frame
numbers handed to the body, when the body leaves the number of frames unchanged.  An index beyond
the end would run forever (`ub`). -/
def iterFrom (nb : Int) (i : Int) : Res (List Int) :=
  if i = size nb then .ok []
  else if size nb < i then .ub
  else do
    let f ← frameAt nb i
    let rest ← iterFrom nb (i + 1)
    pure (f :: rest)
termination_by (nb - i).toNat
decreasing_by simp only [size] at *; omega

/-- The whole loop, file_io_base.cc 80-87. -/
def iterate (nb : Int) : Res (List Int) := iterFrom nb 0

/-- The part of `NetCDFVarBase::write/read` that deals with the frame number: `handle_frame`
(file_io_netcdf.cc 2533, 2615), then the sign check of `get_start_global/local` (2712, 2782, 2934,
3013). -/
def varFrame (nb frame : Int) : Res Int := do
  let f ← handleFrame frame nb
  if f < 0 then .throw .fileIOError else .ok f

/-- `file[i].read(names)` or `file[i].write(names)` for a non-empty list of names, file_io_base.cc
97-110 and file_io_netcdf.cc 314-393: the frame accessed in the file. -/
def useFrame (nb i : Int) : Res Int := do
  let f ← frameAt nb i
  varFrame nb f

end Verif.FileIO
