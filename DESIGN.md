# Formal model of muGrid in Lean 4

This directory holds a Lean 4 model of the logic of muGrid (`/repo/src/libmugrid`) and
theorems about it.  The list of properties is `properties.jsonl`; `MANIFEST.json` says which
theorems settle which property.

## Layout

* `lean/Verif/Model/*.lean`: executable definitions, one module per part of the library.
  Every definition cites the file and lines it models and says where it simplifies.
* `lean/Verif/Spec/*.lean`: vocabulary of the specifications (boxes, addresses, histories, periodic
  displacements), independent of the model.
* `lean/Verif/Lemmas/*.lean`: helper lemmas only.
* `lean/Verif/Props/*.lean`: specifications and property theorems.  Each theorem has an
  `example` beside it that exhibits a concrete case meeting its hypotheses.
* `seeded/LOG.jsonl`: experiments with deliberately wrong models (made outside this directory).

## Trusted base

* Lean 4.33.0's kernel, and the axioms `propext`, `Classical.choice`, `Quot.sound`.  No theorem
  uses any other axiom; there is no `sorry`, `admit`, `native_decide` or `bv_decide`.
* The reading of the C++ source: the code was not run.  The theorems are about the model.
* `std::sort`, `std::map`, `std::vector`, `std::accumulate`, Eigen dense arithmetic, MPI
  collectives, the (Pn)NetCDF library's `put/get_varm` and Python/numpy are trusted to do what
  their documentation says; each is a parameter or a small definition in the model, described there.
  Where processes run at the same time (C87, C98, C101), a collective call returns after all processes have made it, and elements
  copied to the file before it are seen by all processes after it.
* Floating point is not modelled: scalars are elements of an arbitrary commutative ring (or field
  where the code divides).  So results hold for exact arithmetic.
* Integers are unbounded except in the theorems on narrow return types (C07) and on units (C24-C27),
  where `int` overflow is the outcome `ub`.
* Undefined behaviour (division by zero, out-of-range access, use of inactive union members) is the
  distinct outcome `ub` wherever a definition can reach it.

## Plan per property

"False" means: the code does not have the property.  Then the negation is proved with a witness
(`Cnn_false`) and the part that holds is proved as `Cnn_..._partial`.

| Id | Modelled | How proved |
|----|----------|-----------|
| C01 | `get_ccoord`, `get_index`, `get_size` on lists of integers | induction on the dimension (mixed radix digits) |
| C02 | `compute_axes_order` (any result of a sort by the comparator), `get_ccoord_from_axes_order`, `get_index_from_strides`, default strides | nested-strides lemma; false for a one-point axis between longer ones, exact condition given |
| C03 | `DynamicPixels` iterator, enumerator | list of visited coordinates is a permutation of the box |
| C04 | `is_buffer_contiguous` | soundness for all shapes; completeness false with unit extents, exact condition given; without unit extents accepted iff the strides tile an interval |
| C05 | `get_buffer_size` | for nested strides; counterexample for other custom strides |
| C06 | `modulo` with truncating `%` | integer arithmetic |
| C07 | 32-bit return value by symmetric reduction modulo 2^32 | correct up to 2^31 pixels, false beyond |
| C08, C09 | `CartesianContainer::iterator`, `strided_copy` on partial memories | odometer invariant: state after k steps = digits of k |
| C10, C12, C13, C15, C16 | collection as a state machine with all public operations | invariants by induction on operation lists; frame conditions |
| C11, C14 | the same | false (push_back after initialise; failing initialise); invariants for the rest |
| C17 | `IndexIterable` | closed form of the iterator state |
| C18 | shapes and strides of fields | nested-strides lemma |
| C19 | pixel view of the same | false; exact characterisation of the layouts for which it is right |
| C20 | `operator=` through `strided_copy` | from C08 and C18 |
| C21 | `StateField` constructor, `cycle` | simulation by an abstract history; false for two memory steps, exact characterisation of the good lengths |
| C22, C23 | `FieldMap` traversal, `sum`, `mean` | closed form of the visited entries, induction on the sum |
| C24-C27 | `units.cc`, `physics_domain.cc` with `int` overflow as `ub` | gcd by strong induction; interpretation in the rationals |
| C28 | heap of values with handles | invariants on the heap over all programs |
| C29, C31, C55 | gradient operator over a commutative ring | finite sums, reindexing by periodic shifts |
| C30, C32, C58 | the same | false (weights by pixel; subdomains not at the origin; output zeroed first); exact formula for the rest |
| C33 | collectives over lists of ranks | induction on the list of ranks |
| C34 | frame bookkeeping | case analysis; false for `operator[]` at the end |
| C35, C36 | start/count/stride/imap of variables, `put/get_varm` | update lemmas for memories, injectivity of strides, disjointness of subdomains |
| C37 | pixel numbers in the file, requests per pixel | the same; false if the reader adds pixels in another order |
| C38 | names of dimensions | string lemmas; false for names with two underscores |
| C39 | attributes of variables | case analysis; false: a differing unit is never found |
| C40, C61 | `detect_storage_order`, `NumpyProxy`, `WrappedField` | addressing lemmas; false for sliced scalar arrays, for mixed orders (C40) and for one-point axes with several sub-points (C61) |
| C41 | `numpy_copy` | from C08 and C18; false for the pixel view |
| C42 | zip, arange, enumerate iterators | induction; false for `start > 0` |
| C43-C45 | tensors over a commutative ring | finite sums over `Fin n`; C44 false |
| C46 | `ct_sqrt` binary search with `int` overflow | induction on the interval |
| C47-C50 | clone, reshape, empty clone, layout equality | from the field and collection models; C47, C49 false in general; C50 from the invariant of the pixels of a collection |
| C51 | `StateFieldMap`, `StateWrapper` | from C21 and C22 |
| C52 | state fields in files | induction over the history, from C35 and C37; false for local collections with other orders of the pixels |
| C53 | `push_back` | list lemmas over sequences of calls |
| C54 | assertions of `operator[]` | exact sets of accepted indices; false |
| C56 | `DynCcoord` | component-wise |
| C57 | python bindings of the dictionary (`bind_py_options_dictionary.cc`) | false for new keys and dict values |
| C59 | text of units | parsing lemma for the text; false for tags without exponents |
| C62 | `FileIONetCDF` from opening to closing: `append_frame`, `write`, `read`, number of records, entries of local pixels | simulation of a table (frames by variables) over all sequences of operations; a file's content does not depend on the program |
| C63 | the same | false: cells never written are read silently; witnesses for lost frames and lost entries |
| C64 | `register_field_collection` with all its state: dimensions, variables, ids, domain grid, names of sub-fields, pixel collection, frames | invariant over the list of collections; a name of a dimension determines its size |
| C65 | the same, with the state left behind by an exception | names by induction over any calls; false in general, witnesses for each kind of remains |
| C66 | all processes of a program: registration of their collections, the joint header, the session of C62, closing, the next program | the state after registration (C64) is the state from which C62 starts; induction over the list of programs |
| C67 | the object's list of global attributes, the flags for define and data mode, the library's mode and attributes; calls between opening and closing | simulation of a table by any sequence of calls, then induction over programs; false in general (limit of 30 attributes) |
| C68 | `expm`, `logm`, `logm_alt` over the real numbers, recursion of the templates over indices, solver for eigenvalues as a parameter; division by zero and logarithms of non-positive numbers give no result | diagonalisation; Lagrange's products are the projections on eigenvectors; compared with Mathlib's exponential.  False for `logm` with repeated eigenvalues |
| C69 | gradient and transposed operator on the buffers of fields in collections, through `FieldMap` | the loops on buffers refine the loops on functions of C55; the place of an iterate in the buffer is compared with the strides of the field |
| C70 | life of field maps: constructors, waiting callbacks, `initialise_maps`, move, destruction; buffers with identities | invariant of all careful programs, induction on the steps; counterexamples for each rule |
| C71 | constructors of mapped fields, mapped state fields and their static maps, `OptionalMappedField::get`, mean of static maps | case analysis of registration and map construction; then the invariant of C70 and the refinement of C51; false for rejected constructors |
| C72 | python `f.s`, `f.p`, `f.array()`, buffer protocol; `f.s = a` with its strides in bytes divided as unsigned numbers; array and field in one memory | invariant of the copy loop over one memory: cells still to be read hold their old values; lifted to reachable collections; false for arrays that show the field itself shuffled, negative strides are undefined |
| C73 | `=`, `= -x`, `+=`, `-=`, `set_zero`, `= matrix` on fields of any collections of a program, through `eigen_vec` | refinement: statements on buffers simulate statements on arrays, induction on the program; false if the fields are stored differently or with gaps |
| C74 | `eigen_map`, `eigen_sub_pt`, `eigen_pixel` as column-major matrices on the buffer | offset formula of column-major strides; contiguity from C04; columns compared with maps; false for row-major collections |
| C75 | `Pixels<Dim>`: constructors, the cast from `DynamicPixels`, iteration; the default pixel set | same iteration as C03 if contiguous; conversely a complete iteration makes the strides a numbering, which is dense along its sorted axes (tiling lemma); false for strides with gaps |
| C76 | `get_typed_field`, `assert_typeid`, `safe_cast`, the `static_cast`s of references returned by registrations and state fields; a cast to a wrong type is `ub` | invariant over all calls: fields keep their type; state fields refer to stored fields of their own type |
| C77 | `enumerate_indices`, `enumerate_pixel_indices_fast` of dynamic and static maps: the zip of the index iterator and the map | loop invariant: after `i` rounds the index iterator is at `(i / n, i % n)`; false for pixel maps sized at run time |
| C78 | python objects: which object's memory each uses and which objects each keeps (`keep_alive`, `reference_internal`, NumPy bases, buffers); reference counts as reachability; programs that make, hold, forget and use objects | invariant over all actions: objects of the strong classes reach the collection they use; destroyed objects stay destroyed; false for `f.s`, `f.p`, maps, pixel iterators, frames and registered collections |
| C79 | `sum`, `max`, `cumulative_sum`, `bcast`, `logical_and`, `logical_or`, sums of matrices as functions of the arguments of all ranks; python's choice of overloads on every rank; the factory in `Parallel.py` | induction on the ranks; integers modulo 2^32 or 2^64; false for parts of matrices and for python numbers for which the ranks choose different overloads |
| C80 | python programs (`Model/PySession.lean`: calls of the bindings, numpy indexing with integers, loads and stores at byte addresses) and, as specification, a dictionary of functions from indices to values (`Spec/PyArrays.lean`) | refinement: a simulation relation between collections and dictionaries, kept by every call, by induction over programs; the constructor establishes it |
| C81 | python's choice of an overload of `write_global_attribute` and `update_global_attribute` by the value, UTF-8, and the objects that reading returns, on top of C67 (`Model/PyAtts.lean`); specification: a dictionary of python values (`Spec/PyAtts.lean`) | the chosen overload for each class of values; simulation between the dictionary and the attribute table of C67; induction over calls and over uses of the file; false for `np.float32`, `int` beyond 64 bits and `bytes` |
| C82 | python programs on several processes with a collection each and one file (`Model/PyFile.lean`, joining `Model/PySession.lean` and `Model/FileJoin.lean`); specification: dictionaries of arrays on the processes and a table of arrays of the whole domain (`Spec/PyFile.lean`) | refinement: the simulation relations of C80 (collections and dictionaries) and C66 (file and table) together, kept by every statement, by induction over programs and chains of programs; false for values never written (C63) |
| C83 | types of the elements of fields and variables (`ElemType`, `ncTypeOf`, `Var.dataType`, `FileVar.ty` in `Model/NetCDF.lean`); moving data between a field and a variable of different types is `ub` (serial library; PnetCDF converts) | invariant over all registrations (no variable is complex); refusal through the loops of `register`; false that types are compared when a file is opened (witness); exact condition for the round trip |
| C84 | loops `for (auto && e : zip(map1, map2, ...))` whose body is a list of assignments to entries (`Model/MapLoop.lean`); specification: the body run on the values of one point (`Spec/MapLoop.lean`) | induction over statements and rounds: each round changes the entries of its own point only; false for maps with different numbers of entries |
| C85 | `m op= m2[q]`: the value is a reference into a field (`assignEntry`) | induction over the rounds, with the exact result; false within one field |
| C86 | `get_nb_from_shape` with its `int` accumulator, initialisation and size check of numpy arrays with the counts and counters of the code (`Narrow`) | modular arithmetic by induction over the extents; programs below 2^31 points refine to the model with unbounded counts; false in general |
| C87 | processes as sequences of single copies and collective calls, with all interleavings (`Concurrent`); the copies of `write` and `read` for global and local fields | invariant of the reachable states relative to the beginning of the phase; progress, termination by a decreasing measure; absence of races from `C35_write` and `writeLocal_spec` applied to a file of booleans |
| C88 | the union of `RuntimeValue` with the lifetimes of its members, all constructors, assignments and getters (`RuntimeUnion`) | invariant between tag, memory and counts of objects over all sequences of assignments; false for maps and for copies of maps and matrices |
| C89 | the values of dictionaries with the numbers of pointers to them, destruction with the last pointer and everything it destroys in turn, objects that end or are moved from (`DictMemory`) | invariant: the recorded number is the number of pointers; refinement to the model of C28, which keeps everything; pigeonhole for what is never destroyed; false for dictionaries that contain themselves |
| C90 | `get_vector`, `compute_volume`, `compute_pixel_volume`, `get_cube` over an arbitrary ordered field; the python functions numbering pixels (`Geometry`) | induction over the directions, floor of the quotient in each; numbering by C01 and C07; false for negative numbers and beyond 2^31 pixels |
| C91 | `WrappedField`: constructors from pointers and matrices, `set_zero`, `resize`, assignment and arithmetic, check of maps; one memory for all fields (`WrappedMemory`) | loops over cells; copies within one memory refine C08; induction over programs; false for arrays with gaps, for which `C91_zero_exact` characterises the correct cases |
| C92 | `tensor_rank` and the choice of `AxisTransformer`, `Dotter` and `TensorMultiplicationProvider` from matrix sizes, with `none` for calls that do not compile (`TensorDispatch`) | case analysis over orders on top of C43 and C45; false in one dimension, for which `C92_push_one` and `C92_one_exact` say what is computed |
| C93 | the operator of C55 and C69, with `Linear` and `BalancedNodes` as separate conditions on the shape function gradients | the sums of C55 over elements; a displacement permutes the pixels of a periodic grid; C30 with a constant field for the balance of forces |
| C94 | the programs of C66, each with its own subset of the fields (`PartData`); the session model is unchanged | the table simulation of C62 for the variables of the program, and a frame lemma (`run_beside`): operations change no other variable and, in append and read mode, no entries of local pixels; induction over programs |
| C95 | the session of C62-C66 together with the attributes, modes and headers of C67 in one open file; the define or data mode of the library decides whether data calls succeed (`FileBoth`) | the two simulations side by side: data calls need and keep data mode, attribute calls return to it after the first registration; induction over calls and programs; false before the first registration of an appending program |
| C96 | the calls of `Model/Collection.lean`; what makes sense to call is `Coll.Sane` | no branch of a call but clone is `ub`, for all collections; for clones the sizes (C11), positive shapes and places of pixels are invariants of sensible programs; induction over programs; false for clones before initialisation and after `push_back` |
| C97 | the `WITH_MPI` branches of `NetCDFVarBase::write` and `read` beside the serial ones (`Model/ParallelFile.lean`): element count, MPI type, pointer in bytes, independent mode; conversion of elements is a parameter | the number of elements of a request equals the announced one (products of the shapes), request by request the two loops agree; induction over requests and programs; false after an exception in a transfer of a local field |
| C98 | the collective calls of `register_field_collection` and of reading local fields, in order, beside the functions that make them (`Model/Collective.lean`); processes that wait for each other as a transition system (`Meet`) | two processes whose collections differ only in what belongs to the process stay alike (simulation, induction over the sequence of registrations), so outcomes and calls agree; all processes come to their end exactly if their calls are equal (induction over the calls); false for reading local fields |
| C99 | the sessions of C62-C66 with the transfers of C97 on all processes (`Model/ParallelSession.lean`): the outcomes of the processes taken together (`Joint`, with `apart` if some threw and some did not), the independent mode | simulation: as long as the serial calls succeed the parallel ones do the same, transfer by transfer (C97), by induction over histories, names, operations and programs; the file after registration is ready (C66); refused calls are followed along the table of C66, which says when a call is refused; false after a transfer of a local field refused for a frame before the first one |
| C100 | several files and programs one after the other: the files on the disk, the open objects, the memory (`Model/FileSystem.lean`); constructor with its mode, registration, `close` and the destructor, the operations of C62-C66 on each object | simulation by a family of tables (`Spec/FileSystem.lean`): each object as in C62, C66 and C94, and operations on one object leave the others and the memory of other fields alone; induction over steps; for read-only files an invariant on the header and the values |
| C101 | the collective calls of a process over a whole program, beside the operations of C99 (`Model/CollectiveSession.lean`): registration as in C98, then one call per transfer of a global field or entry of its history, two for a local field and one for its hidden variable | each process makes the calls that follow from what all agree on (mode, frame, names, outcome), by induction over histories, names, operations and programs; so they are equal and all processes come to their end (C98); for a local field equivalence with the outcomes being the same; that outcomes are the same follows from C99 and the table of C66; false for a frame that has been appended and not written |
| C102 | programs with frame objects, loops over the file and try blocks (`Model/FrameObjects.lean`): `operator[]`, `append_frame`, `begin`, `end`, the iterator, `FileFrame`, on top of the sessions of C62-C66 | simulation by the table of C66, in which a frame object is the number of a row, by induction over programs, with an inner induction for loops; the number of frames never decreases; false for `file[n]` if it is to be refused, proved with `file[n]` standing for the row appended next (`late`) |
| C103 | file objects with the ids that the library gives them, `close`, the destructor, and calls after `close` (`Model/FileHandles.lean`), on top of C100 | simulation by objects tied to the names of their files (`Spec/FileHandles.lean`), for every way to choose unused ids: ids of open files are distinct and not negative, a closed object has -1; then C100; what calls on a closed object return by induction over the names; false for local fields without requests (`C103_false`) |
| C104 | programs with frame objects, loops and try blocks in the parallel build (`Model/ParallelFrames.lean`): C102 on top of C99 | simulation of the parallel by the serial build along the program, with the table of C102 for what a call finds; frames of frame objects are never before the first one, so that the condition of C99 on frames holds by itself; false for writes of local fields to files open for reading (`C104_false`) |
| C105 | the collective calls of programs with frame objects, loops and try blocks (`Model/CollectiveFrames.lean`): C101 on top of C104 | induction on the program: as long as the outcomes of the parts agree, all processes make the same calls in them; agreement from C104; false if a frame is read that has not been written (`C105_false`) |
| C106 | python programs with any number of frame objects and iterators (`iter`, `reversed`, `next`) that are used in any order (`Model/PyFrames.lean`) | induction on the steps: every iterator keeps the list of frames that it will still give, as the number of frames never gets smaller; then simulation by the table of C102 with rows and lists of rows; `C106_past_end` says what `file[n]` of a file with `n` frames does instead of being refused |
| C107 | the programs of C106 in the parallel build, with their collective calls (`Model/ParallelPyFrames.lean`) | induction on the steps: each step has the outcome of the serial build on all processes (C104 for `read` and `write`), and steps with the same outcome on all processes make the same calls (C105) |
| C108 | loops over maps of state fields, time stepping (`Model/StateMapLoop.lean`) | invariant over the rounds of a loop and over the steps (the map reads slot by slot what the sequence says), against the recurrence in `Spec/StateMapLoop.lean`; works exactly for memories one less than a power of two (`C108_exact`) |
| C60 | `numpy_wrap` | addressing lemmas; false for wrapped arrays with own strides |

No property of the list is thought to be inexpressible; what is out of reach (floating-point
rounding, actual MPI schedules inside the MPI library, the NetCDF file format) is stated as part of
the trusted base.

## What is modelled and what is not

Modelled (files of `/repo/src/libmugrid` unless a path is given):

* `ccoord_operations.hh/.cc`: sizes, strides, index and coordinate conversions, axes order, contiguity,
  buffer size, `DynamicPixels` with its iterator and enumerator, `Pixels<Dim>`, positions and volumes of pixels, cubes.  Not modelled:
  `Pixels<Dim>::get_index` (calls a function which does not exist), `herm` (not used).
* `grid_common.hh`: `DynCcoord` with integer components, and its python sequence protocol.
* `raw_memory_operations.hh`: `CartesianContainer` and `strided_copy`.
* `field.cc/.hh`, `field_typed.cc/.hh`: shapes, strides, allocation, assignment, arithmetic, matrices of `Eigen`,
  clone, reshape, push_back, memory layout, typed access and casts, `WrappedField`.
* `field_collection*.cc/.hh`: registration, sub-points, initialisation, local pixels, iteration, clones.
  A state field is the list of the names of its fields; popping one of them empties the list (its references
  dangle from then on, so every later use is `ub`).
* `field_map*.hh/.cc`, `state_field*.hh/.cc`: traversal, sums, state history; in C70 also maps made
  before the collection is initialised, moves, and reallocation under an existing map.
* `mapped_field.hh`, `optional_mapped_field.hh`, `mapped_state_field.hh`, `state_field_map_static.hh`.  Not
  modelled: the arithmetic operators of mapped fields, which call those of their fields.
* `units.cc`, `physics_domain.cc`: all operations and orders, and the text of units.
* `options_dictionary.cc` and its python binding.
* `gradient_operator_default.cc`: constructor, gradient, transposed operator.  The fields are seen
  through their pixel maps (rows and columns per pixel) in C29-C32, C55, C58 and as buffers in collections
  in C69.
* `communicator.hh`: all functions but `barrier`, with the MPI calls as trusted primitives (integers are added
  modulo 2^32 or 2^64); their python overloads, with the choice of overloads and conversions of pybind11 2.11.1
  trusted (`Model/Reduce.lean`); `Parallel.py`.
* `iterators.hh`: zip, arange, enumerate.  `eigen_tools.hh`: `ct_sqrt`, `logm`, `logm_alt`, `expm` (exact
  arithmetic; `Eigen::SelfAdjointEigenSolver` is a parameter), `tensor_rank`.  `field_map_static.hh`: the sizes of
  tensor iterates.
* `tensor_algebra.hh`, `T4_map_proxy.hh`: the namespaces `Matrices` and `Tensors` in exact arithmetic.
* `file_io_base.cc`: frames.  `file_io_netcdf.cc`: names and dimensions, registration of the variables
  of global, local and state fields, frames, the arguments of the library calls, writing and
  reading, marking of local pixels, attributes of variables, and the life of an open file (modes, number
  of frames and records, sequences of writes and reads on all processes), the types of the elements (in the
  serial build; `Model/ParallelFile.lean` has the parallel one, with the conversion of PnetCDF as a parameter), and global attributes with the
  define and data mode of the library.  The library calls themselves (`putVarm`, `getVarm`, `getAtt`,
  `putAtt`, `putVarmMpi`, `getVarmMpi`, `libPut`, `libRename`, `redef`, `enddef`) are small trusted definitions.  C62-C66
  have no attributes and C67 has no values of variables; `Model/FileBoth.lean` (C95) joins the two.
  `Model/ParallelSession.lean` (C99) is the session in the parallel build.  Trusted there, from the documentation of PnetCDF: `ncmpi_begin_indep_data`
  and `ncmpi_end_indep_data` are collective, collective transfers in the independent mode are refused (`NC_EINDEP`), and so are transfers that write
  to a file opened for reading (`NC_EPERM`).
  `Model/CollectiveSession.lean` (C101) lists the collective calls of the same functions.  Left out there: opening and closing the file (one call
  each) and the calls for global attributes at the first write and in `close` (348, 984-1010).
  `Model/FileSystem.lean` (C100) has several files: a file is a value under a name, found by opening it.  Not modelled there: rights
  and other reasons for which the library may refuse to open or make a file, and the content of the disk while a file is open.  A file
  that is opened twice at a time, and a call on an object that is not open, are outcomes `ub` (not in the scope of any theorem of C100).
  `Model/FileHandles.lean` (C103) has objects that hold an id of the library, and calls on closed objects.  Trusted there, from the documentation of
  NetCDF: the id of a file that is opened is not negative and not that of another open file, and calls with the id -1 are refused (`NC_EBADID`).
  Not modelled there: registration and attributes on a closed object, and the copy of objects (deleted in the code).
  `Model/FrameObjects.lean` (C102) has programs with frame objects, loops over the frames and exceptions that are caught; fields get other
  values only by `read` or by a step `compute` with given memory.
  `Model/ParallelFrames.lean` (C104) has the same programs in the parallel build; all processes run the same program.
  `Model/CollectiveFrames.lean` (C105) has the collective calls in them; the calls for global attributes are left out as in C101.
  `Model/PyFrames.lean` (C106) has the python objects for frames and iterators.  The state of an iterator made by `py::make_iterator` and that
  of `reversed` in CPython are modelled from their documentation and trusted; lifetimes of python objects are in C78.
  `Model/ParallelPyFrames.lean` (C107) has them in the parallel build; all processes run the same program, so that frame objects and
  iterators have the same numbers on all of them.
  `Model/StateMapLoop.lean` (C108) has loops over maps of state fields; the body of the loop reads its values before it assigns.
  Not modelled: `FileIONetCDF::write_no_frame`, a protected member without callers.
* `numpy_tools.hh`: `detect_storage_order`, `NumpyProxy`, `numpy_wrap`, `numpy_copy`.
* `/repo/language_bindings/python/bind_py_field.cc`: `s`, `p`, `array`, the buffer protocol.  NumPy's array
  constructor and conversions of element types are trusted.
* Lifetimes of python objects (C78): the reference policies of all bindings that return objects of muGrid, with
  pybind11 2.11.1 and NumPy as described at the head of `Model/PyLife.lean` (trusted).
* `Model/PySession.lean`: `GlobalFieldCollection(...)`, `register_*_field`, `*_field`, `set_nb_sub_pts`, `field_exists`, `f.s`,
  `f.p`, `set_zero`; numpy's indexing by integers and the order of `flatten` are trusted.  Slices, masks and numpy's
  arithmetic are not modelled.
* `Model/PyAtts.lean`: the attribute functions of `bind_py_file_io.cc`; the order in which overloads are tried and the
  casters of pybind11 (`string_caster`, `list_caster`, two passes) are a trusted model of that library.
* `Model/PyFile.lean`: `FileIONetCDF(...)`, `register_field_collection`, `append_frame`, `read`, `write`, `close` together with
  the calls of `Model/PySession.lean`, for one global collection per process without state fields.

Not modelled: logging and text output other than units, Eigen expression templates, rounding, threads, exceptions thrown by memory allocation.

## Where the code does not do what its interface says

Each line names the theorem that proves it of the model.

* `C02_false`, `C04_false`: one-point axes confuse the sorting of axes by stride.
* `C07_false`: pixel numbers are returned as `int`.
* `C11_false`: `push_back` after `initialise` makes a field larger than its collection.
* `C14_false`, `C14_retry_fails`: a failing `initialise` leaves fields allocated, and a retry can fail.
* `C19_false`, `C41_pixel_false`, `C41_pixel_row_major`: strides of the pixel view.
* `C21_false`, `C51_false`, `C108_false`: the history of a state field is wrong unless its number of fields is a power of two, so
  time stepping with two old values computes wrong numbers.
* `C22_gap`, `C54_false`: maps ignore gaps between pixels; the assertions accept indices beyond the end.
* `C25_false`: unit exponents overflow; `C27_domain_warnings`: predefined physics domains print the warning.
* `C28_cycle`: self-assignment of a matrix is undefined; dictionaries can contain themselves.
* `C30_false`: weights of the transposed gradient are looked up by pixel number.
* `C32_false`, `C32_nonzero_location`: the gradient is undefined on subdomains not at the origin.
* `C33` (`gather` of a block of a larger matrix), `C43_get_false`: outer strides are ignored.
* `C34_false`: `file[n]` is accepted for a file with `n` frames.
* `C37_false`, `C37_row_major`, `C37_fewer_pixels`, `C52_false`: local fields and state fields in files.
* `C38_false`: field names with two underscores cannot be stored.
* `C39_false`, `C39_never`: a file with another unit is accepted.
* `C40_false`, `C40_false_components`, `C60_false`, `C61_false`: numpy arrays.
* `C42`: `enumerate` with a start stops early.  `C44_false`: `Iasymm` is not the antisymmetric projector.
* `C46`: `ct_sqrt` overflows beyond 304 squared.
* `C47_false`, `C49_false`, `C50_components_needed`: clones and layout comparison.
* `C48_stale_count`: `reshape` with a tag leaves the entry count stale.
* `C56`: `%` of coordinates of different dimension is accepted.  Python `DynCcoord(5)[4]` reads outside the array.
* `C75`: the static iteration is not refused for strides with gaps and then leaves the grid; an uninitialised
  collection reports one pixel.
* `C76_popped`: popping a field of a state field leaves the state field with dangling references.
* `C77_false`: `enumerate_indices` of a dynamic map over pixels pairs pixels with the indices of sub-points.
* `C78_false`, `C78_map`, `C78_pixels`, `C78_frame`, `C78_register`: `f.s`, `f.p`, maps, pixel iterators, frames and
  files do not keep alive the collections (files) they use.
* `C79_matrix_false`, `C79_matrix_serial`: `sum` of a part of a matrix sums other elements.  `C79_python_false`,
  `C79_python_bcast_false`: ranks whose python numbers differ in kind or size call MPI with different types.
  `C79_python_truncates`: `np.float32` numbers are truncated.
* `C80_false`: `f.p` counts sub-points after the components in column-major and before them in row-major collections, so
  that a python program depends on the storage order.  `C80_row_major_aliases`: with two component axes two indices of
  the row-major `f.p` show one element (as `C19_exact`).
* `C81_false`, `C81_truncates`: python attributes given as `np.float32` numbers lose their fractions.  `C81_bytes`: an
  attribute that is no UTF-8 text makes `read_global_attributes()` fail as a whole.  `C81_update_types`: `[1.5]` cannot be
  updated to `[2]`, nor `[5]` to `[3000000000]`.
* `C82_false`: a python program that reads a field at a frame where it was never written gets whatever is in the file.
* `C96_false`, `C96_push_back`: `clone` of a field of a global collection before its initialisation copies through null pointers (a local
  collection throws), and `clone` of a local field after `push_back` through a stale pointer.
* `C97_false`, `C97_stuck`: in the parallel build an exception while reading a local field (for instance from a frame that was appended and not
  written yet) leaves the file in the independent mode; all transfers of global fields fail until one of a local field succeeds.
* `C98_false`, `C98_waits`: a process that reads a local field from a frame that was appended and not written leaves by an
  exception between `ncmu_begin_indep_data` and `ncmu_end_indep_data`, which are collective. A process without pixels of
  the collection makes no request, gets no error and waits in `ncmu_end_indep_data` for ever (`C98_missing`).
* `C99_false`, `C99_stuck`: in the parallel build a refused transfer of a local field leaves the file in the independent mode, and all global fields
  are refused from then on.  If some processes have no pixels of the collection, those wait in `ncmu_end_indep_data`.
* `C101_false`: the same as `C98_false` in a whole program: all processes register the same collections and make the same
  calls, and the one without local pixels never comes back from `read`; the serial build raises an error.  `C101_write_local`: so does
  `write` of a local field to a file opened for reading.
* `C66_silent`: `write` of a local field to a file opened for reading does nothing and returns normally as long as no field of the collection has
  been read: the entries of the pixels are all -1, and no request is made that could be refused.
* `C102_false`: `file[n]` of a file with `n` frames is accepted and stands for the frame that is appended later (see `C34_past_end`).
* `C104_false`: the refused write of a local field to a file open for reading leaves it in the independent mode also when it is made through a frame
  object; the frame cannot be read again in the parallel build (see `C99_false`).
* `C105_false`: a loop over the frames that reads a local field waits for ever at a frame that has been appended and not written, on processes
  without local pixels (see `C101_false`).
* `C103_false`: `write` of a local field returns normally after the file, opened for reading, has been closed, for the reason of `C66_silent`.
* `C95_false`: `update_global_attribute` before `register_field_collection` leaves a file opened with Append in define mode,
  so that all later writes fail.
* `C84_false`: a loop over a map over pixels and a map over sub-points pairs pixel `i` with sub-point `i` and ends early.
* `C85_false`, `C85_subtract`: `m -= m[q]` sets the entry `q` to zero on the way and leaves the entries behind it as they are.
* `C86_false`, `C86_refused`: `get_nb_from_shape` accumulates in an `int`; a domain of 2048³ points counts as 0 points and is refused on every
  process, one of 3000³ points is accepted.  `C86_numpy_refused`: arrays over grids of 2^31 points or more cannot be wrapped.  `C86_large_part`:
  the loop over pixels counts with an `int`, too.  `C86_contiguous_exact`, `C86_contiguous_overlap`: so does the test for contiguous buffers, which
  refuses contiguous buffers with a stride of 2^31 or more and accepts some in which pixels share an address.
* `C87_hangs`: `append_frame` counts on each process for itself; if only some processes call it, the next write throws on the others and the
  former wait for ever.  `C87_overlap`: overlapping parts are written in any order.
* `C88_false`, `C88_map_undefined`, `C88_copy`: the assignments of `RuntimeValue` from a map, and from another value that holds a map or
  matrix, use a member of the union that is not alive.  `C88_memory`: if a matrix cannot be allocated during an assignment, the old map or
  matrix is destroyed twice.  `Dictionary` calls only the assignments of numbers and matrices; the others are reachable through `RuntimeValue`, which is public.
* `C89_false`, `C89_leak`: a dictionary that was added to itself, directly or through others, is never destroyed, nor is what it contains.
* `C90_false`, `C90_python_wraps`: python's `get_domain_ccoord` accepts numbers of no pixel; `get_domain_index` is negative on some grids beyond 2^31
  pixels.  `C90_dimensions`: `compute_pixel_volume` accepts a grid and lengths of different dimensions.
* `C91_zero_gaps`: `set_zero` and arithmetic on a wrapped array with gaps touch the cells between the elements; `C91_matrix_block`: the outer stride of a
  wrapped block of a matrix is ignored; `C91_inside_false`: wrapped memory may be too small if the pixels of the collection have gaps.
* `C92_false`: in one dimension `push_forward` takes every tensor for a vector and multiplies with `F` once; `C92_dot_false`, `C92_ddot_false`: `dot` of two
  second-order tensors and `ddot` of a fourth- and a second-order tensor do not compile, and in one dimension neither compiles at all (`C92_dot_one`).
* `C83_false`: opening a file does not compare types: integers are accepted for a variable with real numbers, and the
  bytes of one are then taken for the other (`C83_round_trip_partial`).  `C83_left_behind`: a rejected complex field leaves
  its dimensions behind.
* `C57_false`: `d[k] = {...}` is lost.  `C58_false`: a rejected gradient has zeroed its output.
* `C63_false`, `C63_trailing`, `C63_append_entries`, `C63_read_first`: values never written are read without
  error, appended frames that are not written are lost, and the entries of local pixels are lost if a local
  collection is first used in `Append` mode or read before it is written.
* `C65_false`, `C65_rejected_defined`: a variable that is rejected stays registered, is defined in the file by the
  next registration, and writing it reads outside an array.  `C65_rejected_dimensions`: so do dimensions.
  `C65_skipped`: a field named like a sub-field of a state field is left out silently.  `C65_hidden`: a field
  named like a local collection is hidden.  `C65_append_before`: frames appended before registration are lost.
* `C67_false`: only the first 30 global attributes of a file are read.  `C67_clash`: a rejected renaming changes
  the object.  `C67_append_blocked`: in append mode, updating an attribute before registering a collection makes
  all later writes fail.  `C67_foreign`, `C67_close_fails`: closing throws, and the destructor closes.
* `C68_logm_identity`: `logm` divides by zero if two eigenvalues are equal, as for the identity.
  `C68_logm_lower`: it is wrong for diagonalisable matrices that are not symmetric, which its comment names.
* `C70_stale_pad`, `C70_stale_push`, `C70_popped`: enlarging the buffer of a mapped field leaves its maps with
  dangling pointers, and initialising a collection after removing a mapped field is undefined.
  `C70_static_before`: loops over static maps before the initialisation do nothing instead of throwing.
* `C71_atomic_false`, `C71_retry_false`: a mapped field whose constructor throws leaves its field registered, so
  that an optional mapped field asked too early can never be filled.  `C71_mean_empty`: the mean of a static map
  over no pixels is not a number.
* `C72_false`: `f.s = transpose of f.s` loses elements.  `C72_negative`: arrays with negative strides are read at
  addresses beyond 2^63 (they only work because addresses wrap around, `C72_wraps`).  `C72_packed`: members of
  structured arrays are read from wrong places.  `C72_before`: before the initialisation, `f.s` is detached from the
  field and `f.s = a` writes through a null pointer.
* `C73_false`, `C73_gap`, `C73_shape`: `+=`, `-=` and `= -x` work on the first entries of the buffers, so they combine
  different pixels if the storage orders differ, leave out pixels if there are gaps, and accept other shapes.
  `C73_local`: so does `=` between local collections.
* `C74_false`: the matrices of `eigen_sub_pt` and `eigen_pixel` mix sub-points for row-major collections, without an
  error.  `C74_refused_contiguous`: contiguous fields can be refused (from `C04_false`).
* `C59_false`: dimensionless units with a tag print as the empty text.
