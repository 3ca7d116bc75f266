{"id": "C01", "title": "Column-major index and coordinate functions are mutual inverses", "statement": "For a grid with positive extents and an arbitrary origin, CcoordOps::get_ccoord turns every linear index in [0, number of pixels) into a coordinate inside the grid box, and CcoordOps::get_index turns it back into the same linear index; conversely every coordinate in the box survives get_index followed by get_ccoord.", "quantifier": "all dimensions, all positive extents, all (also negative) origins, all indices in range, all coordinates in the box", "why_tests_cant": "Grid extents and dimension are unbounded; tests check a handful of small grids.", "anchors": ["src/libmugrid/ccoord_operations.hh: get_ccoord, get_index, get_size", "src/libmugrid/ccoord_operations.cc: get_index"]}
{"id": "C02", "title": "Pixel numbering of a grid with default strides is invertible in both storage orders", "statement": "DynamicPixels::get_ccoord(get_index(c)) = c for every pixel c of the subdomain and get_index(get_ccoord(i)) = i for every i in [0,size), whether the pixel strides were derived from StorageOrder::ColMajor or StorageOrder::RowMajor, for every subdomain location.", "quantifier": "all grids with positive extents, both storage orders, all locations, all pixels", "why_tests_cant": "The axes order is recovered by sorting strides; ties between equal strides only appear for grids with an extent of one in particular positions, which sampled grids miss.", "anchors": ["src/libmugrid/ccoord_operations.hh: compute_axes_order, get_ccoord_from_axes_order, get_ccoord_from_strides, get_index_from_strides, DynamicPixels", "src/libmugrid/field_collection_global.cc: initialise(StorageOrder)"]}
{"id": "C03", "title": "Pixel iteration is exhaustive and repetition-free", "statement": "Iterating over the pixels of a subdomain visits every pixel of the box exactly once and nothing else, in the order of the linear index, and enumerate() pairs each pixel with the linear index that get_index returns for it.", "quantifier": "all grids, strides for which iteration is permitted, and locations", "why_tests_cant": "A statement about the complete set of visited coordinates for every extent.", "anchors": ["src/libmugrid/ccoord_operations.hh: DynamicPixels::iterator, DynamicPixels::Enumerator, Pixels", "src/libmugrid/ccoord_operations.cc: DynamicPixels::begin/end/enumerate"]}
{"id": "C04", "title": "The contiguity test tells the truth", "statement": "is_buffer_contiguous answers true exactly when the given strides number the pixels of the grid 0,1,...,size-1 without gap or overlap (i.e. the strides are those of a dense array in some axis order).", "quantifier": "all shapes and all strides", "why_tests_cant": "An if-and-only-if over all stride vectors, including degenerate extents.", "anchors": ["src/libmugrid/ccoord_operations.hh: is_buffer_contiguous, compute_axes_order"]}
{"id": "C05", "title": "The buffer size covers every pixel", "statement": "get_buffer_size(shape, strides) is strictly larger than the linear index of every pixel of the grid, so that a field buffer allocated with that many pixels can hold all of them.", "quantifier": "all shapes with positive extents and all admissible stride vectors", "why_tests_cant": "Out-of-buffer access depends on the combination of strides; only a proof covers all of them.", "anchors": ["src/libmugrid/ccoord_operations.hh: get_buffer_size, get_index_from_strides", "src/libmugrid/ccoord_operations.cc: get_buffer_size", "src/libmugrid/field_collection_global.cc: initialise"]}
{"id": "C06", "title": "Periodic wrap-around is a true modulus", "statement": "CcoordOps::modulo(a,b) for b>0 lies in [0,b) and differs from a by a multiple of b; hence wrapping is idempotent, and invariant under adding multiples of b.", "quantifier": "all integers a, all positive b", "why_tests_cant": "All integers including negative ones.", "anchors": ["src/libmugrid/ccoord_operations.hh: modulo"]}
{"id": "C07", "title": "Linear pixel indices survive the narrow integer return type", "statement": "The linear index computed by the column-major get_index equals the mathematical index for every pixel of every grid whose number of pixels fits the documented Index_t type.", "quantifier": "all grids with at most 2^63-1 pixels", "why_tests_cant": "Needs grids with more than 2^31 pixels, which tests never allocate.", "anchors": ["src/libmugrid/ccoord_operations.hh: get_index (returns Dim_t)", "src/libmugrid/ccoord_operations.cc: get_index", "src/libmugrid/grid_common.hh: Dim_t, Index_t"]}
{"id": "C08", "title": "strided_copy copies every logical element and nothing else", "statement": "After strided_copy(shape, in_strides, out_strides, in, out), for every multi-index inside shape the output element addressed by out_strides equals the input element addressed by in_strides, provided the output addressing is injective, and every output location not addressed keeps its previous value; the input is unchanged.", "quantifier": "all shapes (any rank), all input strides, all injective output strides, all buffer contents", "why_tests_cant": "The loop order depends on a sort of the strides; correctness is a statement about all permutations of all shapes.", "anchors": ["src/libmugrid/raw_memory_operations.hh: CartesianContainer, strided_copy, linear_index"]}
{"id": "C09", "title": "The odometer loop behind strided copies enumerates the index box exactly once", "statement": "Iterating a CartesianContainer over a shape with any axes order visits each multi-index of the box exactly once, the first axis of the order running fastest.", "quantifier": "all shapes, all axes orders (permutations)", "why_tests_cant": "Covers all ranks and extents, including carry chains of any length.", "anchors": ["src/libmugrid/raw_memory_operations.hh: CartesianContainer::iterator"]}
{"id": "C10", "title": "Field names are unique and registration never replaces a field", "statement": "In every reachable state of a field collection each name denotes at most one field; register_* with a name that exists fails and leaves the collection as it was; the accessor variants (*_field) return the existing field if its type, components and sub-division agree and fail otherwise, leaving the collection as it was.", "quantifier": "all sequences of register, access, pop, set_nb_sub_pts, initialise calls", "why_tests_cant": "Quantifies over all call histories.", "anchors": ["src/libmugrid/field_collection.hh: register_field_helper, field_exists", "src/libmugrid/field_collection.cc: register_*_field, pop_field"]}
{"id": "C11", "title": "After initialisation every field has exactly the allocated size", "statement": "In every reachable initialised state of a collection, every registered field whose number of sub-points is known owns a buffer of nb_components*nb_sub_pts*nb_buffer_pixels (+ padding) entries, no matter in which order fields were registered, sub-point numbers were set and the collection was initialised.", "quantifier": "all histories of collection operations", "why_tests_cant": "All interleavings of register / set_nb_sub_pts / initialise.", "anchors": ["src/libmugrid/field_collection.cc: allocate_fields, set_nb_sub_pts", "src/libmugrid/field_typed.cc: resize", "src/libmugrid/field_collection.hh: register_field_helper"]}
{"id": "C12", "title": "The number of sub-points of a tag is write-once", "statement": "Once set_nb_sub_pts(tag, n) has succeeded the value reported for the tag is n in every later state; a later call with a different value fails and changes nothing, and a non-positive value is never accepted; the tag \"pixel\" always has one sub-point.", "quantifier": "all histories", "why_tests_cant": "All call sequences.", "anchors": ["src/libmugrid/field_collection.cc: set_nb_sub_pts, get_nb_sub_pts, has_nb_sub_pts"]}
{"id": "C13", "title": "A collection is initialised at most once and its pixels are fixed afterwards", "statement": "After a successful initialise the number of pixels, the pixel indices and the domain never change; a second initialise fails and changes nothing; add_pixel on an initialised local collection fails and changes nothing.", "quantifier": "all histories", "why_tests_cant": "All call sequences.", "anchors": ["src/libmugrid/field_collection_global.cc: initialise", "src/libmugrid/field_collection_local.cc: add_pixel, initialise"]}
{"id": "C14", "title": "A failing initialise leaves the collection untouched", "statement": "If initialise throws (wrong domain size, inconsistent dimensions, field of wrong size) the collection is in the state it had before the call.", "quantifier": "all states and arguments", "why_tests_cant": "Every failure path from every state.", "anchors": ["src/libmugrid/field_collection_global.cc: initialise", "src/libmugrid/field_collection.cc: allocate_fields"]}
{"id": "C15", "title": "Generated names and detached fields do not disturb a collection", "statement": "generate_unique_name returns a name not used in the collection; creating a detached field leaves the set of registered names as before.", "quantifier": "all reachable collections", "why_tests_cant": "All sets of user-chosen names, including ones that look like generated names.", "anchors": ["src/libmugrid/field_collection.cc: generate_unique_name", "src/libmugrid/field_collection.hh: detached_field"]}
{"id": "C16", "title": "Local pixel numbering", "statement": "In a local collection the k-th added pixel is the k-th local pixel; the pixel index list has one entry per pixel, the reverse map global->local sends each registered pixel id to a local position holding that id, and for duplicate-free additions the two maps are mutually inverse.", "quantifier": "all sequences of add_pixel", "why_tests_cant": "All sequences, including repeated pixel ids.", "anchors": ["src/libmugrid/field_collection_local.cc: add_pixel, initialise", "src/libmugrid/field_collection.hh: get_global_to_local_index_map"]}
{"id": "C17", "title": "Sub-point iteration of a collection enumerates all entries in order", "statement": "Iterating the (sub-division) indices of an initialised collection yields pixel*nb_sub_pts+offset for every pixel in order and every offset 0..nb_sub_pts-1; for a global collection this is exactly 0,1,...,nb_pixels*nb_sub_pts-1.", "quantifier": "all collections and sub-point numbers", "why_tests_cant": "All sizes; the iterator uses modular arithmetic state.", "anchors": ["src/libmugrid/field_collection.cc: IndexIterable", "src/libmugrid/field_collection.hh: IndexIterable::iterator"]}
{"id": "C18", "title": "Field strides address distinct in-bounds entries (sub-point view)", "statement": "The strides returned by get_strides(IterUnit::SubPt) together with get_shape(IterUnit::SubPt) give every (component..., sub-point, pixel...) tuple its own offset within the field buffer, in both storage orders; for dense pixel strides the offsets fill the buffer completely.", "quantifier": "all component shapes, sub-point numbers, grids, both storage orders", "why_tests_cant": "Injectivity over all index tuples and shapes.", "anchors": ["src/libmugrid/field.cc: get_shape, get_strides, get_sub_pt_strides, get_components_strides", "src/libmugrid/field_collection_global.cc: get_pixels_strides"]}
{"id": "C19", "title": "Field strides address distinct in-bounds entries (pixel view)", "statement": "The same for IterUnit::Pixel: get_shape and get_strides have equal lengths and distinct index tuples address distinct entries within the buffer, and the element addressed agrees with the sub-point view (the sub-point being folded into the last component index).", "quantifier": "all component shapes, sub-point numbers, grids, both storage orders", "why_tests_cant": "Injectivity over all index tuples and shapes.", "anchors": ["src/libmugrid/field.cc: get_shape, get_strides, get_sub_pt_shape, get_sub_pt_strides"]}
{"id": "C20", "title": "Field assignment preserves logical values across storage orders", "statement": "Assigning one global field to another with equal shape makes every (component, sub-point, pixel) element of the destination equal to the one of the source even when the two collections use different storage orders or pixel strides; differing shapes are rejected and the destination is unchanged.", "quantifier": "all shapes, both storage orders on either side, all contents", "why_tests_cant": "All layouts pairs and all shapes.", "anchors": ["src/libmugrid/field_typed.cc: TypedFieldBase::operator=", "src/libmugrid/raw_memory_operations.hh: strided_copy"]}
{"id": "C21", "title": "State fields remember history", "statement": "For a state field with n >= 1 memory steps, after any sequence of writes to the current value and calls to cycle(), old(k) (1<=k<=n) returns the value that was current k cycles ago, and writing current() does not affect any old(k).", "quantifier": "every n >= 1, every interleaving of writes and cycles", "why_tests_cant": "Unbounded histories and every memory length; tests use one or two memory lengths.", "anchors": ["src/libmugrid/state_field.cc: StateField::StateField, cycle", "src/libmugrid/state_field.hh: current, old"]}
{"id": "C22", "title": "A field map visits every entry exactly once", "statement": "Iterating a map over a field with dense column-major storage yields, in order, the entries at offsets 0, stride, 2*stride, ...; the chunks are disjoint, cover the buffer exactly, and assigning through the map changes exactly those entries.", "quantifier": "all fields, iteration units and row/column splits accepted by the constructor", "why_tests_cant": "All sizes and splits.", "anchors": ["src/libmugrid/field_map.cc: FieldMap::FieldMap, size, begin, end, set_data_ptr", "src/libmugrid/field_map.hh: operator[], iterator"]}
{"id": "C23", "title": "Sum and mean over a map", "statement": "sum() over a map is the sum of all mapped entries and mean() is the sum divided by their number, independent of how the entries are split in rows and columns.", "quantifier": "all field contents and sizes", "why_tests_cant": "All sizes and contents.", "anchors": ["src/libmugrid/field_map.cc: sum, mean"]}
{"id": "C24", "title": "The greatest common divisor routine terminates with the gcd", "statement": "compute_gcd(a,b) terminates for every pair of integers and returns gcd(|a|,|b|).", "quantifier": "all integers a, b", "why_tests_cant": "Termination and correctness for all inputs.", "anchors": ["src/libmugrid/units.cc: compute_gcd, compute_gcd_worker"]}
{"id": "C25", "title": "Unit exponents are kept in lowest terms and behave like rational numbers", "statement": "Every UnitExponent that can be constructed or computed denotes numerator/denominator in lowest terms; equality, ordering, product and quotient of exponents (which multiply/divide units) correspond to equality, ordering, sum and difference of the rationals; a zero denominator is rejected.", "quantifier": "all integer numerators and non-zero denominators", "why_tests_cant": "All integers, also negative denominators.", "anchors": ["src/libmugrid/units.cc: UnitExponent", "src/libmugrid/units.hh: UnitExponent"]}
{"id": "C26", "title": "Unit algebra", "statement": "Units with one tag form a commutative group under * and /; adding or subtracting units succeeds exactly when they are equal and returns that unit; combining units of different tags in any arithmetic operation raises UnitError.", "quantifier": "all units (any rational exponents, any tags)", "why_tests_cant": "All seven-tuples of rationals.", "anchors": ["src/libmugrid/units.cc: Unit::operator*, /, +, -, check_tags"]}
{"id": "C27", "title": "Units and physics domains are totally ordered", "statement": "The < used to key maps by Unit and PhysicsDomain is a strict total order compatible with ==, so that exactly one of a<b, a==b, b<a holds.", "quantifier": "all units and physics domains", "why_tests_cant": "Transitivity over all triples.", "anchors": ["src/libmugrid/units.cc: Unit::operator<, UnitExponent::operator<", "src/libmugrid/physics_domain.cc: operator<, operator=="]}
{"id": "C28", "title": "Dictionaries behave as nested maps with shared handles", "statement": "After any sequence of add / assign / read operations a Dictionary returns for every key path the value stored last under it; handles obtained by operator[] for sub-dictionaries alias the stored value; adding an existing key or reading a missing or wrongly typed value raises an error and changes nothing.", "quantifier": "all histories of operations on any number of handles", "why_tests_cant": "All aliasing patterns and histories.", "anchors": ["src/libmugrid/options_dictionary.cc: Dictionary, RuntimeValue", "src/libmugrid/options_dictionary.hh"]}
{"id": "C29", "title": "The discrete gradient is linear", "statement": "apply_gradient is a linear map of the nodal field; apply_gradient_increment(u, alpha, e) adds alpha times the gradient of u to e; likewise for the transpose.", "quantifier": "all grids, shape-function tables, nodal fields and scalars", "why_tests_cant": "All grids, values and operators.", "anchors": ["src/libmugrid/gradient_operator_default.cc: apply_gradient, apply_gradient_increment, apply_transpose, apply_transpose_increment"]}
{"id": "C30", "title": "Gradient and transpose are adjoint", "statement": "For every nodal field u and quadrature-point field s: the w-weighted inner product of s with the gradient of u equals the inner product of u with apply_transpose(s, w), where w assigns one weight to every quadrature point of a pixel (unit weights by default).", "quantifier": "all periodic grids, operators, weights, fields", "why_tests_cant": "All fields and grids; only constant weights are usually tested.", "anchors": ["src/libmugrid/gradient_operator_default.cc: apply_gradient_increment, apply_transpose_increment"]}
{"id": "C31", "title": "The gradient of a constant vanishes and the gradient commutes with translations", "statement": "On a periodic grid shifting the nodal field by any grid vector shifts its gradient by the same vector; if the shape-function gradients of each element sum to zero then the gradient of a constant field is zero.", "quantifier": "all grids, shifts, operators", "why_tests_cant": "All shifts and grids.", "anchors": ["src/libmugrid/gradient_operator_default.cc: apply_gradient_increment"]}
{"id": "C32", "title": "The gradient addresses only pixels of the subdomain", "statement": "For every subdomain (any location) each nodal value read by apply_gradient and written by apply_transpose belongs to an existing pixel of the subdomain.", "quantifier": "all grids, all subdomain locations", "why_tests_cant": "Depends on combination of location and extent.", "anchors": ["src/libmugrid/gradient_operator_default.cc: apply_gradient_increment (ccoord modulo)", "src/libmugrid/ccoord_operations.hh: DynamicPixels::get_index"]}
{"id": "C33", "title": "Gather concatenates in rank order and scan is a prefix sum", "statement": "Communicator::gather returns on every rank the concatenation of all ranks' columns in rank order; cumulative_sum returns on rank r the sum over ranks 0..r; so cumulative_sum minus own contribution gives disjoint consecutive offsets.", "quantifier": "all numbers of ranks, all contributions", "why_tests_cant": "All numbers of ranks and sizes.", "anchors": ["src/libmugrid/communicator.hh: gather, cumulative_sum, sum, max"]}
{"id": "C34", "title": "Only existing frames of a file are accessible", "statement": "For a file with n frames, indexing with i succeeds exactly for -n <= i < n and denotes frame i mod n; append_frame creates frame n and makes the file have n+1 frames; iteration visits frames 0..n-1.", "quantifier": "all n and i, all histories of append_frame", "why_tests_cant": "All frame numbers and histories.", "anchors": ["src/libmugrid/file_io_base.cc: operator[], append_frame, begin, end, size", "src/libmugrid/file_io_netcdf.cc: handle_frame"]}
{"id": "C35", "title": "Global fields survive a write/read round trip", "statement": "Writing a global field into a frame and reading the frame back (also into a field with the other storage order, or from another decomposition of the domain) restores every (component, sub-point, pixel) value; other frames and other variables of the file are unaffected.", "quantifier": "all field shapes, storage orders, frames, file contents, histories of writes", "why_tests_cant": "All layouts, shapes and histories.", "anchors": ["src/libmugrid/file_io_netcdf.cc: NetCDFVarBase::write/read, get_start_global, get_count_global, get_nc_imap_global, add_field_dims_global"]}
{"id": "C36", "title": "Parallel writes of disjoint subdomains assemble the global field", "statement": "If the subdomains of the ranks partition the domain then collective writing of a field puts every pixel's values at the position given by its global coordinates, independent of the order in which ranks' requests are executed; no rank overwrites another's data.", "quantifier": "all partitions, all rank orders", "why_tests_cant": "All partitions and schedules.", "anchors": ["src/libmugrid/file_io_netcdf.cc: get_start_global, get_count_global, write"]}
{"id": "C37", "title": "Local fields survive a write/read round trip per pixel", "statement": "Writing a field of a local collection and reading it back into a collection with the same pixels restores, for every global pixel id, the values stored for that pixel, regardless of the order in which pixels were added to the writing and the reading collection.", "quantifier": "all pixel sets and add orders on all ranks", "why_tests_cant": "All permutations.", "anchors": ["src/libmugrid/file_io_netcdf.cc: register_lfc_to_gfc_local_pixels, get_start_local, NetCDFVarBase::write/read"]}
{"id": "C38", "title": "Any field name can be stored in a file", "statement": "For every field name the dimension names derived from it are mapped back to their base name and tensor index, and different (field, index) pairs never share a dimension name.", "quantifier": "all strings", "why_tests_cant": "All strings.", "anchors": ["src/libmugrid/file_io_netcdf.cc: compute_dim_name, compute_base_name, compute_tensor_dim_index, compute_tensor_dim_name"]}
{"id": "C39", "title": "Opening a file detects conflicting units", "statement": "When an existing file is opened and a field collection is registered whose field's unit differs from the unit attribute in the file, an error is raised.", "quantifier": "all stored and expected attribute values", "why_tests_cant": "All pairs of attribute values.", "anchors": ["src/libmugrid/file_io_netcdf.cc: NetCDFAtt::reserve_value_space, equal_value, register_netcdf_attribute_values"]}
{"id": "C40", "title": "Wrapped numpy arrays are interpreted element-wise correctly", "statement": "When a numpy array of a shape compatible with a field collection is accepted for wrapping, the field element (component, sub-point, pixel) is the array element with the same index tuple.", "quantifier": "all shapes and all byte strides numpy can produce (slices, transposes)", "why_tests_cant": "All stride patterns.", "anchors": ["src/libmugrid/numpy_tools.hh: detect_storage_order, NumpyProxy"]}
{"id": "C41", "title": "numpy_copy produces the logical array", "statement": "numpy_copy(field) returns an array whose element with index tuple t equals the field element with index tuple t, in every storage order.", "quantifier": "all fields", "why_tests_cant": "All layouts.", "anchors": ["src/libmugrid/numpy_tools.hh: numpy_copy", "src/libmugrid/raw_memory_operations.hh: strided_copy"]}
{"id": "C42", "title": "zip, enumerate and arange follow their documented (python) semantics", "statement": "zip stops with the shortest container and pairs positions; enumerate(c) yields (i, c[i]) for all i, enumerate(c, s) yields (i+s, c[i]) for all i; arange(a,b,s) yields a, a+s, ... up to but excluding b.", "quantifier": "all containers, starts and steps", "why_tests_cant": "All sizes and steps.", "anchors": ["src/libmugrid/iterators.hh: zip, enumerate, arange"]}
{"id": "C43", "title": "Fourth-order tensor operations in matrix form agree with index notation", "statement": "With the matrix storage of fourth-order tensors, tensmult/ddot contract the last two indices, outer, outer_under and outer_over produce A_ij B_kl, A_ik B_jl, A_il B_jk, and the identity, transposition, symmetrisation and trace tensors act as these operations on every second-order tensor.", "quantifier": "all dimensions and all tensors over a commutative ring", "why_tests_cant": "All dimensions and entries.", "anchors": ["src/libmugrid/tensor_algebra.hh: Matrices::outer, outer_under, outer_over, tensmult, Itrac, Iiden, Itrns, Isymm", "src/libmugrid/T4_map_proxy.hh: get"]}
{"id": "C44", "title": "The antisymmetric projector", "statement": "Matrices::Iasymm applied to a second-order tensor gives its antisymmetric part and is a projector.", "quantifier": "all dimensions and tensors", "why_tests_cant": "All dimensions.", "anchors": ["src/libmugrid/tensor_algebra.hh: Iasymm"]}
{"id": "C45", "title": "push_forward and pull_back are mutual inverses", "statement": "For every invertible F and every tensor of rank 1, 2 or 4, pull_back(push_forward(t,F),F) = t and vice versa, and both are compatible with composition of deformation gradients.", "quantifier": "all invertible F, all tensors, all dimensions", "why_tests_cant": "All matrices.", "anchors": ["src/libmugrid/tensor_algebra.hh: push_forward, pull_back"]}
{"id": "C46", "title": "Compile-time square root recovers the dimension", "statement": "ct_sqrt(n*n) = n for every n>=1, in general it returns the least r>=1 with r*r>=n, and the search terminates.", "quantifier": "all natural numbers", "why_tests_cant": "All numbers.", "anchors": ["src/libmugrid/eigen_tools.hh: ct_sqrt"]}
{"id": "C47", "title": "A cloned field has the same values and shape", "statement": "clone(name, ...) yields a new field with the same component shape, sub-division, unit and values as the original, and registers exactly one new field in the collection.", "quantifier": "all fields of all collections", "why_tests_cant": "All component shapes.", "anchors": ["src/libmugrid/field_typed.cc: TypedField::clone"]}
{"id": "C48", "title": "Reshaping never changes data", "statement": "reshape succeeds only if the number of degrees of freedom per pixel is unchanged, and then the buffer size and content stay valid for the new shape; otherwise it raises FieldError and the field is unchanged.", "quantifier": "all shapes and tags", "why_tests_cant": "All shapes.", "anchors": ["src/libmugrid/field.cc: reshape"]}
{"id": "C49", "title": "An empty clone of a collection has the same layout", "statement": "get_empty_clone returns a collection without fields with the same pixels, sub-point numbers and memory layout (storage order, strides) as the original.", "quantifier": "all initialised collections", "why_tests_cant": "All storage orders and strides.", "anchors": ["src/libmugrid/field_collection_global.cc: get_empty_clone", "src/libmugrid/field_collection_local.cc: get_empty_clone"]}
{"id": "C50", "title": "Equal memory layout means equal addressing", "statement": "If has_same_memory_layout answers true for two fields of equal component count then the same element tuple has the same buffer offset in both.", "quantifier": "all pairs of fields", "why_tests_cant": "All pairs of shapes.", "anchors": ["src/libmugrid/field.cc: has_same_memory_layout", "src/libmugrid/field_collection.cc: has_same_memory_layout"]}
{"id": "C51", "title": "State field maps follow the state field's history", "statement": "A map over a state field gives for its current entry the current field's entry and for old(k) the entry of the field k cycles ago, after any number of cycles, also when the map was created before the cycles.", "quantifier": "all histories", "why_tests_cant": "All histories.", "anchors": ["src/libmugrid/state_field_map.cc: make_maps, get_current, get_old", "src/libmugrid/state_field_map.hh: StateWrapper", "src/libmugrid/state_field_map_static.hh"]}
{"id": "C52", "title": "State fields survive a write/read round trip including history", "statement": "Writing a state field stores the current value and all remembered values in frame order; reading it back restores current and old(k) for all k.", "quantifier": "all memory lengths, cycles, frames", "why_tests_cant": "All histories.", "anchors": ["src/libmugrid/file_io_netcdf.cc: NetCDFVarStateField write/read, get_start_global, get_start_local"]}
{"id": "C53", "title": "Appending to fields keeps earlier entries", "statement": "push_back on a field of a local collection appends one entry per call and never changes earlier ones; after initialise the number of entries must equal the number of collection entries or initialise fails.", "quantifier": "all sequences", "why_tests_cant": "All sequences.", "anchors": ["src/libmugrid/field_typed.cc: push_back", "src/libmugrid/field_collection.cc: allocate_fields"]}
{"id": "C54", "title": "Reading entries through checked element access stays within the buffer", "statement": "Every map access the library performs during iteration, and every index accepted by operator[] of a map, lies within the field's buffer.", "quantifier": "all maps and indices", "why_tests_cant": "Off-by-one at the end of the buffer.", "anchors": ["src/libmugrid/field_map.hh: operator[]", "src/libmugrid/mapped_field.hh: operator[]"]}
{"id": "C55", "title": "Permutation matrices of the gradient operator", "statement": "For a valid assignment of element nodes to pixel nodes and offsets, applying the node permutation to the nodal values of the 2^dim corner pixels picks for every element node exactly the value of its assigned corner pixel and pixel node.", "quantifier": "all element tables, dimensions, node numbers", "why_tests_cant": "All tables.", "anchors": ["src/libmugrid/gradient_operator_default.cc: permutation, GradientOperatorDefault"]}
{"id": "C56", "title": "Coordinate arithmetic", "statement": "Component-wise arithmetic on DynCcoord of equal dimension obeys the laws of component-wise integer arithmetic, equality compares exactly dimension and used components, and mismatching dimensions raise an error.", "quantifier": "all coordinates", "why_tests_cant": "All values.", "anchors": ["src/libmugrid/grid_common.hh: DynCcoord"]}
{"id": "C57", "title": "Item assignment on python dictionaries stores the value", "statement": "After d[key] = v in python (v an int, float, float matrix or dict) the dictionary returns v under key, for existing and for new keys; nothing else changes. A Dictionary built from a python dict returns along every key path the value of the python dict.", "quantifier": "all dictionaries, keys and nested python dicts", "why_tests_cant": "Nesting depth and key sets are unbounded; the interesting failure (a value stored in a temporary) raises no error.", "anchors": ["language_bindings/python/bind_py_options_dictionary.cc: __setitem__, __getitem__, convert", "src/libmugrid/options_dictionary.cc: Dictionary::operator[], operator="]}
{"id": "C58", "title": "A rejected gradient application does not touch the output", "statement": "If apply_gradient or apply_transpose raises an error because of its arguments, the output field keeps its values.", "quantifier": "all operators and fields", "why_tests_cant": "Which of several statements runs first on the error path is not visible in result tests; all combinations of wrong arguments.", "anchors": ["src/libmugrid/gradient_operator_default.cc: apply_gradient, apply_transpose"]}
{"id": "C59", "title": "The text of a unit identifies the unit", "statement": "Two units have the same text (as printed and as stored in the unit attribute of a file) only if they are equal.", "quantifier": "all units that programs can build", "why_tests_cant": "All exponents and tags; a test prints a few units.", "anchors": ["src/libmugrid/units.cc: operator<<, superscript", "src/libmugrid/file_io_netcdf.cc: NetCDFVarBase::add_attribute_unit"]}
{"id": "C60", "title": "numpy_wrap is a window on the field", "statement": "numpy_wrap(field) gives an array that shows, at every index tuple, the field's element with that tuple, for fields of collections and for fields that wrap an array.", "quantifier": "all fields, element sizes and storage orders", "why_tests_cant": "All strides and element sizes; tests compare a few arrays of doubles.", "anchors": ["src/libmugrid/numpy_tools.hh: numpy_wrap", "src/libmugrid/field_typed.cc: WrappedField::get_strides"]}
{"id": "C61", "title": "Contiguous numpy arrays are accepted", "statement": "A C- or Fortran-contiguous array whose shape is components, sub-points, grid is accepted for wrapping.", "quantifier": "all shapes with positive extents", "why_tests_cant": "The storage order is guessed from strides; extents of one create ties between strides that tests do not enumerate.", "anchors": ["src/libmugrid/numpy_tools.hh: detect_storage_order, NumpyProxy"]}
{"id": "C62", "title": "A file is a table of frames and variables", "statement": "For any sequence of append_frame, write, read and changes of the fields on a newly created or appended file, each call succeeds or raises FileIOError exactly as for a table with one row per frame and one column per variable; after closing, any program that registers the same variables, with any number of processes, decomposition and storage order, reads exactly the values that were last written, and appends after the last written frame.", "quantifier": "all sequences of operations, fields, decompositions, histories of opening and closing", "why_tests_cant": "Sequences of calls, combinations of modes, decompositions and kinds of variables are unbounded.", "anchors": ["src/libmugrid/file_io_netcdf.cc: open, read, write, register_lfc_to_gfc_local_pixels, register_netcdf_dimension_ids", "src/libmugrid/file_io_base.cc: append_frame"]}
{"id": "C63", "title": "Values that were never written cannot be read", "statement": "Reading a variable at a frame at which it has not been written raises an error, frames that were appended survive closing the file, and writing never loses values silently.", "quantifier": "all sequences of operations", "why_tests_cant": "The content of unwritten parts of a file is arbitrary, tests see zeros or whatever the file system gives.", "anchors": ["src/libmugrid/file_io_netcdf.cc: open (NC_NOFILL), read, write", "src/libmugrid/file_io_base.cc: append_frame"]}
{"id": "C64", "title": "Registered collections become exactly their variables", "statement": "Registering collections that belong together (one domain, distinct names, shapes that a file can hold) one after the other in a new file succeeds; afterwards the file has one variable per state field and per other field, all their dimensions, and no two dimensions of one name. Another program with the same or fewer fields, any decomposition and storage order, can register its collections when it opens the file and sees the number of stored frames.", "quantifier": "all lists of collections, fields, state fields, decompositions", "why_tests_cant": "Names of dimensions are built from field names, tags and numbers, so clashes depend on combinations of fields; lists of collections are unbounded.", "anchors": ["src/libmugrid/file_io_netcdf.cc: register_field_collection, register_field_collection_global, register_field_collection_local, define_netcdf_dimensions, define_netcdf_variables, register_netcdf_dimension_ids, NetCDFDimensions::add_dim"]}
{"id": "C65", "title": "A rejected registration leaves the file object unchanged", "statement": "If register_field_collection raises an error, the file object and the file are as before; names stay unique, registered variables stay registered, and a name in use is never registered twice.", "quantifier": "all sequences of registrations, also failing ones", "why_tests_cant": "Error paths after partial registration and what later calls make of the remains.", "anchors": ["src/libmugrid/file_io_netcdf.cc: register_field_collection, NetCDFVariables::add_field_var, get_names"]}
{"id": "C66", "title": "Programs that use the same file see the same data, from registration to values", "statement": "Any number of programs, each with its own number of processes, decomposition of the domain, storage orders and memory, open the same file one after the other, each registers its collections (global, local, with state fields) and appends, writes and reads. The processes of a program define the same header; all registrations succeed; each program finds a table with the values that the programs before it have written, at the same pixels, components, sub-points and history positions.", "quantifier": "all programs, collections, decompositions, numbers of processes, sequences of operations", "why_tests_cant": "Unbounded combinations of programs and decompositions; needs several processes and several programs per case.", "anchors": ["src/libmugrid/file_io_netcdf.cc: register_field_collection, open, read, write, register_lfc_to_gfc_local_pixels, initialise_gfc_local_pixels", "src/libmugrid/field_collection_local.cc: initialise", "src/libmugrid/communicator.cc: cumulative_sum, sum"]}
{"id": "C67", "title": "Global attributes written to a file are read back", "statement": "The global attributes of a file behave like a list of named values: for any sequence of calls (write, update with a new value or name, registration, writing data) each call succeeds or raises FileIOError as expected and changes nothing else; after closing, any number of programs that open the file find these attributes; closing replaces only the date and time of the last change.", "quantifier": "all sequences of calls, files and programs", "why_tests_cant": "Whether a call succeeds depends on the state of the library and on the calls before it; sequences are unbounded.", "anchors": ["src/libmugrid/file_io_netcdf.hh: write_global_attribute, update_global_attribute, NetCDFGlobalAtt, NetCDFGlobalAttributes", "src/libmugrid/file_io_netcdf.cc: open, close, define_global_attributes, register_netcdf_global_attribute_names, update_global_attribute_last_modified"]}
{"id": "C68", "title": "expm and logm are the exponential and the logarithm of matrices", "statement": "For every symmetric matrix expm gives the matrix exponential; for every positive definite matrix logm and logm_alt give the unique symmetric matrix whose exponential it is, so that logm_alt undoes expm.", "quantifier": "all dimensions and matrices, all solvers for eigenvalues that are correct", "why_tests_cant": "A continuum of matrices; tests use random matrices, whose eigenvalues are distinct with probability one.", "anchors": ["src/libmugrid/eigen_tools.hh: log_comp::Proj, log_comp::Summand, logm, spectral_decomposition, logm_alt_spectral, logm_alt, expm_spectral, expm"]}
{"id": "C69", "title": "The gradient operator on stored fields", "statement": "For a nodal field and a quadrature-point field of column-major global collections on one gap-free grid starting at the origin, apply_gradient changes nothing but the values of the quadrature-point field, and the value it stores for direction d of component c at quadrature point q of element e of pixel x is the sum over the nodes i of e of the shape function gradient (d, i) times component c of the nodal field at node i, at the pixel x plus the corner of node i (periodic). apply_transpose with default weights stores in the same way the sums of the transposed operator in the nodal field. Values are found with the strides the fields report.", "quantifier": "all operators with valid nodes, collections a program can build, component shapes, grids", "why_tests_cant": "All shapes, grids and operators; buffers, pixel maps, strides and the permutation of nodes have to fit together.", "anchors": ["src/libmugrid/gradient_operator_default.cc: apply_gradient, apply_transpose, apply_gradient_increment, apply_transpose_increment", "src/libmugrid/field_map.cc: FieldMap", "src/libmugrid/field.cc: get_strides"]}
{"id": "C70", "title": "A map shows its field's data for its whole life", "statement": "A field map, dynamic or static, made before or after its collection is initialised, moved or not, gives access to exactly the buffer of its field from the initialisation until it is destroyed, whatever else is done with the collection and other maps; maps on one field agree, and what is written through one is read through all. Before the initialisation, loops over dynamic maps throw. Waiting maps never make the initialisation fail. The program must not remove the field, change its tag by reshape, or enlarge its buffer after the initialisation.", "quantifier": "all sequences of calls on the collection, its fields and any number of maps, all shapes", "why_tests_cant": "The order of registration, map construction, moves, destruction and initialisation is arbitrary and unbounded; a dangling pointer often still shows the right data in a test.", "anchors": ["src/libmugrid/field_map.cc: FieldMap, set_data_ptr, begin", "src/libmugrid/field_map.hh: operator[]", "src/libmugrid/field_map_static.hh: StaticFieldMap, begin", "src/libmugrid/field_collection.cc: initialise_maps, preregister_map"]}
{"id": "C71", "title": "Mapped fields are made with their map or not at all", "statement": "Making a mapped field (or mapped state field) registers one field with the right number of components and a map with the right shape, exactly when the name is free, the order is column-major and the sub-points are known; if it throws, the collection keeps its fields as they were. From the initialisation on it gives access to the buffer of its field in pieces of rows times columns; the map of a state field follows the cycles. An optional mapped field makes its field at the first get, returns the same afterwards, and can be asked again when get has thrown. The mean of a static map is that of the dynamic map.", "quantifier": "all collections, shapes, kinds of iterates, sequences of calls afterwards", "why_tests_cant": "Combinations of shapes, iteration units, storage orders and sub-points known or not; error paths; empty collections.", "anchors": ["src/libmugrid/mapped_field.hh: MappedField", "src/libmugrid/optional_mapped_field.hh: OptionalMappedField::get", "src/libmugrid/mapped_state_field.hh: MappedStateField", "src/libmugrid/state_field_map_static.hh: StaticStateFieldMap", "src/libmugrid/field_map_static.hh: StaticFieldMap::mean"]}
{"id": "C72", "title": "Python views show the field, and assignment of an array stores it", "statement": "f.s and f.p are windows on the buffer of the field. After f.s = a or f.p = a the view shows the elements that a had before, element by element, whatever the order of the axes of a in memory, and no other memory changes, also if a is itself a view of a field. Arrays of another shape are refused without any change; there is no broadcasting. A refused assignment changes nothing.", "quantifier": "all fields, storage orders, arrays (shape, strides, element sizes, place in memory), python sessions", "why_tests_cant": "Strides and overlaps of arrays are unbounded; the result with overlapping memory depends on the order in which elements are copied.", "anchors": ["language_bindings/python/bind_py_field.cc: array_getter, array_setter, add_typed_field", "src/libmugrid/numpy_tools.hh: numpy_wrap", "src/libmugrid/raw_memory_operations.hh: strided_copy"]}
{"id": "C73", "title": "Arithmetic of fields is element-wise", "statement": "For fields of the same shape in initialised collections, also different ones, the statements a = b, a = -b, a += b, a -= b and a.set_zero() change element x of a as the same statement on arrays would, and change no other field; any sequence of such statements gives what the sequence gives on arrays. A statement that throws changes nothing; before the initialisation it throws.", "quantifier": "all worlds of collections a program can build, shapes, storage orders, sequences of statements", "why_tests_cant": "Storage orders, strides and shapes of both operands combine; tests use two fields of one collection, where buffers and elements agree.", "anchors": ["src/libmugrid/field_typed.cc: TypedFieldBase::operator=, operator+=, operator-=, operator-, set_zero, eigen_vec"]}
{"id": "C74", "title": "The matrices eigen_sub_pt and eigen_pixel show the field", "statement": "For a field with contiguous pixels in an initialised collection eigen_sub_pt() has one column per sub-point and eigen_pixel() one column per pixel: sub-point s of the pixel with number k is column s + nb_sub_pts*k, its components are the rows, the first index running fastest. Every column is of this kind and is the iterate of the same number of any map on the field. Assignment to a coefficient changes exactly that element. Otherwise they throw.", "quantifier": "all collections a program can build, component shapes, numbers of sub-points, grids, strides", "why_tests_cant": "All shapes and strides; tests use column-major collections and compare matrices with each other.", "anchors": ["src/libmugrid/field_typed.cc: TypedFieldBase::eigen_map, eigen_sub_pt, eigen_pixel"]}
{"id": "C75", "title": "Statically and dynamically dimensioned pixel sets agree", "statement": "The view get_dimensioned_pixels<Dim>() of a pixel set is refused for another dimension; iteration over it, and over a Pixels<Dim> made directly, visits every pixel of the grid exactly once, in the same order as the dynamic iteration, whatever the strides; where the dynamic iteration is refused because the strides have gaps, so is the static one. A collection that is not initialised has no pixels to iterate over.", "quantifier": "all grids, locations, positive strides, any implementation of std::sort", "why_tests_cant": "Strides are unbounded; tests iterate statically only with default strides.", "anchors": ["src/libmugrid/ccoord_operations.hh: Pixels, Pixels::iterator", "src/libmugrid/ccoord_operations.cc: get_dimensioned_pixels, DynamicPixels()"]}
{"id": "C76", "title": "Typed access never yields a field of another type", "statement": "A reference to a typed field or state field, however it was obtained (registration of a new or an existing name, lookup by name, safe_cast, current, old or get_fields of a state field), refers to a field with that element type (and sub-division and unit, where they were asked for); in all other cases an exception is thrown. This stays so after any further calls other than popping the field.", "quantifier": "all collections a program can build, names, types, sequences of calls", "why_tests_cant": "Wrong static_casts are undefined behaviour that a test does not notice; names, types and the order of calls are unbounded.", "anchors": ["src/libmugrid/field_collection.cc: register_field_helper, register_state_field_helper, get_field, get_state_field", "src/libmugrid/field_typed.cc: TypedField::safe_cast", "src/libmugrid/field.cc: assert_typeid", "src/libmugrid/state_field.hh: TypedStateField::current, old, get_fields", "language_bindings/python/bind_py_field_collection.cc: get_typed_field"]}
{"id": "C77", "title": "Enumerating a map pairs every value with its own index", "statement": "enumerate_indices of a map over pixels (sub-points) of a stored field yields one pair per pixel (sub-point), in order, made of the index of the pixel, or pixel*nb_sub_pts + sub-point, and the values of that pixel (sub-point). enumerate_pixel_indices_fast does so for maps over pixels and throws for others.", "quantifier": "all collections a program can build (global and local, gap-free), fields, shapes of iterates, numbers of sub-points", "why_tests_cant": "The two iterators run in step over different containers; all sizes, index sets and sub-point numbers.", "anchors": ["src/libmugrid/field_map.cc: enumerate_pixel_indices_fast, enumerate_indices", "src/libmugrid/field_map_static.hh: enumerate_indices", "src/libmugrid/iterators.hh: ZipIterator, ZipContainer", "src/libmugrid/field_collection.hh: IndexIterable::iterator"]}
{"id": "C78", "title": "Python objects keep alive the memory they use", "statement": "In any python program, whatever objects it makes (collections, fields, state fields, arrays, views, maps, pixels, iterators, files, frames), keeps in variables and forgets in any order, no call or access uses memory of an object that was destroyed. An object is destroyed exactly when it cannot be reached from the program's variables, and never comes back.", "quantifier": "all python programs: all orders of making, holding, forgetting and using objects", "why_tests_cant": "A dangling pointer often still shows the right values; the order in which references go away is unbounded and depends on function scopes in user code.", "anchors": ["language_bindings/python/bind_py_field.cc: add_field, add_typed_field", "language_bindings/python/bind_py_field_collection.cc: add_field_collection", "language_bindings/python/bind_py_state_field.cc", "language_bindings/python/bind_py_common_mugrid.cc: add_dynamic_pixels", "language_bindings/python/bind_py_file_io.cc", "src/libmugrid/numpy_tools.hh: numpy_wrap"]}
{"id": "C79", "title": "Reductions and broadcasts give all ranks the right value", "statement": "For every number of processes and all values: sum gives every rank the sum (for integers if it can be represented), max the greatest value, logical_and and logical_or the conjunction and disjunction, cumulative_sum on rank r the sum of the ranks up to r, bcast the value of the root; sum of matrices does so for every element. The same holds in python for numbers of any kind and size, and the result does not depend on whether muGrid was built with MPI. muGrid.Communicator(c) has the processes of c.", "quantifier": "all numbers of processes, values, matrices, kinds of python numbers", "why_tests_cant": "Tests run on a few processes with small equal kinds of numbers; the python overload is chosen from the value on every rank separately.", "anchors": ["src/libmugrid/communicator.hh: sum, max, cumulative_sum, bcast, logical_and, logical_or", "language_bindings/python/bind_py_communicator.cc: add_communicator", "language_bindings/python/muGrid/Parallel.py: Communicator"]}
{"id": "C80", "title": "A python field collection behaves as a dictionary of numpy arrays", "statement": "For the user of the python package a field collection is a dictionary of arrays with the axes (components, sub-point, pixels): in any program of registrations, requests for existing fields, set_nb_sub_pts, assignments to f.s and f.p, stores and loads of elements and parts by index (negative indices too), set_zero and tests of existence, every call returns the values and throws the exceptions it would with the dictionary. f.p counts the sub-points with the last component and shows the same values as f.s. This holds whatever the grid, the strides and the storage order.", "quantifier": "all python programs of these calls, of any length; all grids, subdomains, component shapes, numbers of sub-points, storage orders, array strides", "why_tests_cant": "Programs are unbounded and combine two views, layouts and element sizes; tests run a few statements on small column-major grids.", "anchors": ["language_bindings/python/bind_py_field_collection.cc: add_field_collection", "language_bindings/python/bind_py_field.cc: add_field, add_typed_field", "src/libmugrid/field_collection_global.cc: GlobalFieldCollection::initialise", "src/libmugrid/field.cc: get_strides, get_shape", "examples/field_collection.py", "examples/sub_points.py"]}
{"id": "C81", "title": "Global attributes written in python are read back as equal python values", "statement": "A python program that creates a file and writes and updates global attributes reads, with read_global_attribute and read_global_attributes, exactly the dictionary of the values it has passed (equal in the sense of ==): at any time, after closing and opening the file, and over any number of further uses for reading and appending. Values are accepted or refused by their type only: a text, or a sequence of real numbers. An attribute can be replaced by a value of the same type that is not larger.", "quantifier": "all python programs of these calls, any number of uses of the file, all texts (also beyond ASCII), lists of numbers of any kind and size", "why_tests_cant": "The overload is chosen by the values of the list; all mixtures of int, float and other numbers and all limits of types; sessions are unbounded.", "anchors": ["language_bindings/python/bind_py_file_io.cc: write_global_attribute, read_global_attribute, read_global_attributes, update_global_attribute", "src/libmugrid/file_io_netcdf.cc: NetCDFAtt", "src/libmugrid/file_io_netcdf.hh: write_global_attribute, update_global_attribute"]}
{"id": "C82", "title": "A distributed python program sees one table of whole-domain arrays in its file", "statement": "Processes that share a domain make their field collections, fill them, create a file and then, in any order and any number, store and load elements, register further fields, append frames, and write and read frames by number (negative numbers too). All return values, exceptions, arrays and the number of frames are those of dictionaries of arrays on the processes and one table with a row per frame and an array of the whole domain per field. Programs that open the file later, on any other number of processes, another decomposition and another storage order, find the same table.", "quantifier": "all programs of these calls, numbers of processes, decompositions of the domain, component shapes, sub-points, storage orders (also different ones on different processes), chains of programs", "why_tests_cant": "It is the end-to-end claim over all layers at once; programs, decompositions and chains of uses are unbounded, and tests use one decomposition and one storage order.", "anchors": ["language_bindings/python/bind_py_file_io.cc: add_file_io_netcdf, add_file_frame", "language_bindings/python/bind_py_field_collection.cc: add_field_collection", "language_bindings/python/bind_py_field.cc: add_field, add_typed_field", "src/libmugrid/file_io_netcdf.cc: FileIONetCDF, NetCDFVarField", "src/libmugrid/file_io_base.cc: FileIOBase, FileFrame", "examples/io.py"]}
{"id": "C83", "title": "Types of elements in files", "statement": "A field is stored with the type of its elements: fields of different types get different types in the file, complex fields are rejected with FileIOError and never become variables, and a program whose collections are accepted for an existing file has fields of the types of its variables, so that what is read is what was written.", "quantifier": "all fields of all types, sequences of registrations in all modes, pairs of writing and reading programs", "why_tests_cant": "Tests store and read one type with one program; the pairs of programs and sequences of rejected and accepted registrations are unbounded.", "anchors": ["src/libmugrid/file_io_netcdf.cc: NetCDFVarBase::typeid_to_nc_type, NetCDFVariables::add_field_var, FileIONetCDF::register_netcdf_variable_ids, NetCDFVarBase::write/read", "src/libmugrid/file_io_netcdf.hh: NetCDFVarBase"]}
{"id": "C84", "title": "Loops over several maps work point by point", "statement": "A loop over maps of one collection zipped together (for (auto && entries : zip(map1, map2, ...))) with a body that reads and assigns entries goes over all points of the maps; afterwards every field has at every point what the body computes from the values at that point alone, in the order of its statements, also if several maps show the same field; nothing else changes.", "quantifier": "all collections a program can build, numbers and kinds of maps, shapes of entries, bodies", "why_tests_cant": "The number of maps, the bodies and the aliasing between maps are unbounded; tests loop over one or two maps with fixed bodies.", "anchors": ["src/libmugrid/iterators.hh: ZipIterator, zip", "src/libmugrid/field_map.hh: FieldMap::Iterator, FieldMap::operator[]", "src/libmugrid/field_map_static.hh: StaticFieldMap::Iterator"]}
{"id": "C85", "title": "An assignment to all entries of a map uses the value it is given", "statement": "map = v, map += v and map -= v change every entry with the value that v has when the operator is called, also if v is an entry of a map.", "quantifier": "all maps, shapes, operations, values, entries", "why_tests_cant": "Tests pass values that are stored elsewhere; aliasing with each of the entries is not tried.", "anchors": ["src/libmugrid/field_map.hh: FieldMap::operator=, operator+=, operator-=", "src/libmugrid/field_map_static.hh: StaticFieldMap::operator=, operator+=, operator-="]}
{"id": "C86", "title": "Grids of any size can be counted", "statement": "GlobalFieldCollection::initialise accepts every domain whose number of points fits Index_t, whatever the part of it a process holds, and NumpyProxy accepts every array with the shape of the grid: the number of points is the product of the extents.", "quantifier": "all domains, subdomains, extents and programs; all arrays", "why_tests_cant": "Domains of 2^31 points and more are never built in tests; a distributed run reaches them with small parts on every process.", "anchors": ["src/libmugrid/grid_common.hh: get_nb_from_shape", "src/libmugrid/field_collection_global.cc: GlobalFieldCollection::initialise", "src/libmugrid/numpy_tools.hh: NumpyProxy"]}
{"id": "C87", "title": "Processes that use a file at the same time get what they would get in turn", "statement": "When all processes of a communicator make the same sequence of write and read calls for fields whose parts on the processes do not overlap, and no call fails, every execution ends, whatever the speed of the processes: none waits for ever, none accesses memory outside of its fields, and at the end the file and all fields are what serving the processes one after the other gives. In particular what is written by all and then read by all, with any other decomposition, arrives.", "quantifier": "all executions (interleavings of the accesses of the processes between collective calls), numbers of processes, sequences of calls, global and local fields, decompositions, storage orders", "why_tests_cant": "The number of interleavings grows exponentially and a test run shows one of them, on one machine, with two processes.", "anchors": ["src/libmugrid/file_io_netcdf.cc: NetCDFVarBase::write, NetCDFVarBase::read", "src/libmugrid/file_io_netcdf.hh: ncmu_put_varm_all, ncmu_get_varm_all, ncmu_begin_indep_data, ncmu_end_indep_data", "src/libmugrid/communicator.hh: Communicator", "src/libmugrid/file_io_base.cc: FileIOBase::append_frame, handle_frame"]}
{"id": "C88", "title": "A runtime value holds what was assigned last", "statement": "Whatever is assigned to a RuntimeValue (integers, reals, matrices, maps, other runtime values), in whatever order, get_value_type and the getter of that type give the value assigned last, the other getters throw ValueError, and every map or matrix that it held is destroyed exactly once.", "quantifier": "all sequences of assignments, values of all types, allocation failures", "why_tests_cant": "Lifetimes in a union are not observable by assertions: use of a member that is not alive often seems to work; the sequences of assignments are unbounded.", "anchors": ["src/libmugrid/options_dictionary.hh: RuntimeValue, RuntimeValue::Variant", "src/libmugrid/options_dictionary.cc: RuntimeValue::operator=, potentially_destroy_non_trivial_member, get_int, get_real, get_matrix"]}
{"id": "C89", "title": "Values of dictionaries live exactly as long as they can be reached", "statement": "A value in a dictionary exists as long as some living Dictionary object leads to it along keys, and is destroyed (once) when the last way to it is gone; statements on living objects never use a destroyed value; whether and when values are destroyed changes no result.", "quantifier": "all programs of constructions, copies, moves, assignments, additions, look-ups and ends of life, any nesting and sharing", "why_tests_cant": "The shapes of sharing and the orders in which objects end are unbounded; leaks and uses of destroyed values show only under instrumentation, for the shapes tried.", "anchors": ["src/libmugrid/options_dictionary.hh: Dictionary, RuntimeValue", "src/libmugrid/options_dictionary.cc: Dictionary, RuntimeValue::~RuntimeValue, potentially_destroy_non_trivial_member"]}
{"id": "C90", "title": "The pixels of a grid tile its domain", "statement": "For a box cut into pixels: the number of pixels times compute_pixel_volume is compute_volume of the lengths; every point of the box lies in the pixel of exactly one grid point, whose corner is get_vector of its coordinates with the pixel sizes, and no pixel reaches out of the box. In python get_domain_index gives the column-major number of every pixel of a grid, and get_domain_ccoord gives the pixel with a number, for pixels of the grid only.", "quantifier": "all dimensions, extents, lengths, points of the box, pixel numbers; exact arithmetic", "why_tests_cant": "The points of a box are infinitely many and the grids unbounded; tests look at a few positions in one grid.", "anchors": ["src/libmugrid/ccoord_operations.hh: get_vector, compute_volume, get_cube, get_ccoord, get_index", "src/libmugrid/ccoord_operations.cc: compute_pixel_volume, get_index", "language_bindings/python/bind_py_common_mugrid.cc: add_get_ccoord_helper, add_get_index_helper, add_get_cube_helper"]}
{"id": "C91", "title": "Fields on existing memory act on the elements of that memory", "statement": "A WrappedField around an array or matrix shows its elements: set_zero, assignment, +=, -= and = -x change exactly the cells of the elements of the field on the left, to the values that the elements with the same indices have on the right; the elements lie in the memory that was given; padding is refused and maps are refused where they would show other cells.", "quantifier": "all shapes, strides, storage orders, sizes, contents, programs of such statements", "why_tests_cant": "Which cells are touched depends on strides that tests do not enumerate; a wrong cell between the elements is not noticed by comparing elements.", "anchors": ["src/libmugrid/field_typed.cc: WrappedField, WrappedField::set_zero, TypedFieldBase::operator=, eigen_vec", "src/libmugrid/field_typed.hh: WrappedField", "src/libmugrid/field_map.cc: FieldMap::FieldMap", "src/libmugrid/raw_memory_operations.hh: strided_copy"]}
{"id": "C92", "title": "Tensor operations are chosen by the order of the tensor", "statement": "push_forward, pull_back, dot, ddot and tensmult take matrices and find the order of the tensors from the sizes. Whatever the dimension: push_forward applies F to each index, pull_back undoes it, dot contracts neighbouring indices, ddot two pairs of them, and tensmult contracts all indices of the smaller tensor; calls for tensors whose contraction is of first, second or fourth order compile.", "quantifier": "all dimensions, all tensors of first, second and fourth order, exact arithmetic", "why_tests_cant": "The functions are templates: each test instantiates one dimension and one pair of orders, and instantiations that are not tested are never compiled.", "anchors": ["src/libmugrid/eigen_tools.hh: get_rank, tensor_rank, tensor_dim", "src/libmugrid/tensor_algebra.hh: dot, ddot, tensmult, AxisTransform::push_forward, AxisTransform::pull_back, Dotter, AxisTransformer, TensorMultiplicationProvider"]}
{"id": "C93", "title": "Gradients of linear fields are exact, gradients have zero mean and forces balance", "statement": "With shape function gradients that differentiate linear functions, apply_gradient of a field that is linear in the position of the nodes gives its slope at every quadrature point of every element that does not cross the periodic boundary; apply_gradient of any field sums to zero over the pixels for every quadrature point and direction; apply_transpose of any quadrature point field, with any weights, sums to zero over the nodes, and of a uniform one is zero everywhere.", "quantifier": "all dimensions, grids, elements, quadrature points, nodal layouts, fields, weights; exact arithmetic", "why_tests_cant": "Tests apply the operator to a few fields on one small grid and compare with tolerances; the sums run over all pixels of grids of any size.", "anchors": ["src/libmugrid/gradient_operator_default.hh: GradientOperatorDefault", "src/libmugrid/gradient_operator_default.cc: GradientOperatorDefault::apply_gradient, apply_gradient_increment, apply_transpose, apply_transpose_increment"]}
{"id": "C94", "title": "A program may use only some of the fields of a file", "statement": "A file made with register_field_collection and write can be opened with Read or Append by a program that registers only some of its fields, in collections and an order of its own and with any decomposition: it reads the values last written for those fields by whichever program, what it writes is found by the programs after it, and the variables it did not register keep their values; opened with Read the file stays as it is.", "quantifier": "all files created by this library, subsets of the stored fields, numbers of processes, decompositions, storage orders, sequences of programs and of operations in them", "why_tests_cant": "The subsets of fields and the orders in which programs with different subsets follow each other are unbounded; tests register the same collection for writing and reading.", "anchors": ["src/libmugrid/file_io_base.cc: FileIOBase::register_field_collection", "src/libmugrid/file_io_netcdf.cc: FileIONetCDF::register_field_collection_global, register_field_collection_local, write, read, open, NetCDFVariables::get_variable", "src/libmugrid/file_io_netcdf.hh: NetCDFVariables"]}
{"id": "C95", "title": "Global attributes and data of one file do not disturb each other", "statement": "In a file opened by FileIONetCDF the calls append_frame, write and read succeed, fail and give values as if write_global_attribute and update_global_attribute had not been called in between, and the attributes read back are the ones last given as if no data had been written; this also holds for programs that open the file afterwards to read it or to append to it.", "quantifier": "all numbers of processes, decompositions, field collections, sequences of data and attribute calls, sequences of programs", "why_tests_cant": "The interleavings are unbounded; the netCDF library has a hidden mode (define or data) that attribute calls and registrations switch, and a test sees only the orders it tries.", "anchors": ["src/libmugrid/file_io_netcdf.cc: FileIONetCDF::open, register_field_collection_global, register_field_collection_local, write, read, write_global_attribute, update_global_attribute, close", "src/libmugrid/file_io_netcdf.hh: FileIONetCDF, netcdf_mode"]}
{"id": "C96", "title": "Calls on field collections are defined", "statement": "Every call on a field collection and the fields it owns (registration, removal, sub-points, pixels, initialisation, reshape, push_back, padding, set_zero, state fields, clone), in whatever order and with whatever arguments, either succeeds or throws an exception; it never has undefined behaviour. Writing through the data of a field is defined exactly inside its buffer.", "quantifier": "all collections, sequences of calls of any length, names, shapes, grids, strides", "why_tests_cant": "Sequences of calls are unbounded, and undefined behaviour may pass a test unnoticed: a copy through a null or stale pointer shows only in the order of calls that nobody tried.", "anchors": ["src/libmugrid/field_collection.cc: FieldCollection", "src/libmugrid/field_collection_global.cc: GlobalFieldCollection::initialise", "src/libmugrid/field_collection_local.cc: LocalFieldCollection::initialise, add_pixel", "src/libmugrid/field_typed.cc: TypedField::clone, resize, set_pad_size, push_back, TypedFieldBase::operator=", "src/libmugrid/field.cc: Field::reshape, get_strides"]}
{"id": "C97", "title": "The parallel build moves the same data as the serial build", "statement": "A program that writes and reads registered fields has the same exceptions, leaves the same values in the file and gets the same values in its fields, whether the library was built with MPI (PnetCDF, which also gets a number of elements, an MPI type and a pointer advanced in bytes, and switches to an independent mode for local fields) or without.", "quantifier": "all grids, layouts, storage orders, element types, frames, local pixels, sequences of transfers, also after exceptions", "why_tests_cant": "Tests run one build and a few field shapes; a wrong element count, type or pointer step shows only for some shapes and types, and the hidden mode of PnetCDF only after an exception.", "anchors": ["src/libmugrid/file_io_netcdf.cc: NetCDFVarBase::write, read, nc_type_to_mpi_datatype, get_bufcount_mpi_global, get_bufcount_mpi_local, increment_buf_ptr", "src/libmugrid/file_io_netcdf.hh: ncmu_begin_indep_data, ncmu_end_indep_data"]}
{"id": "C98", "title": "All processes make the same collective calls and none waits for ever", "statement": "When all processes of a communicator register the same field collections, each with its own subdomain and its own local pixels (possibly none), every call has the same outcome on all of them, they define the same dimensions and variables, and they make the same collective MPI and PnetCDF calls in the same order, also when registrations are refused; so no process waits for ever. The same holds for reading a local field.", "quantifier": "all numbers of processes, decompositions, distributions of local pixels, field collections, sequences of registrations, open modes", "why_tests_cant": "A deadlock needs a particular distribution of pixels and a particular sequence of refused calls on several processes; tests run few processes, and most of them none with an empty part.", "anchors": ["src/libmugrid/file_io_netcdf.cc: FileIONetCDF::register_field_collection, register_field_collection_global, register_field_collection_local, register_lfc_to_gfc_local_pixels, define_netcdf_dimensions, define_netcdf_variables, define_netcdf_attributes, add_field_dims_local, NetCDFVarBase::read", "src/libmugrid/communicator.hh: Communicator::sum, cumulative_sum"]}
{"id": "C99", "title": "Programs that use files do the same in the parallel and in the serial build", "statement": "Programs that create a file or open one, register global and local collections with state fields on any number of processes, and append, write and read frames have the same outcome of every call on all processes, the same values in memory and the same file, whether the library was built with MPI or without; this also holds after calls that were refused.", "quantifier": "all numbers of processes, decompositions, collections, sequences of operations and of programs, element conversions that keep values", "why_tests_cant": "Both builds cannot be run side by side in a test, and the difference shows only in sequences: PnetCDF has a mode for independent transfers that an exception leaves switched on, and processes without pixels do not throw where the others do.", "anchors": ["src/libmugrid/file_io_netcdf.cc: FileIONetCDF::read, write, open, NetCDFVarBase::write, read, NetCDFVarStateField::write, read", "src/libmugrid/file_io_netcdf.hh: ncmu_begin_indep_data, ncmu_end_indep_data"]}
{"id": "C100", "title": "Several files and programs do not disturb each other", "statement": "Programs that run one after the other, each with any number of files open at a time, find in every file exactly what was last written to it under that name by whichever program, also from another number of processes and with part of the fields. Write refuses a file that exists, Read and Append one that does not exist, without any effect; Overwrite starts from nothing; a file that is only opened for reading keeps its content whatever is called on it; a file that no call names is left alone.", "quantifier": "all sequences of programs, files, open modes, numbers of processes, decompositions, field collections, operations on the files in any interleaving", "why_tests_cant": "The interleavings of calls on several files and the histories of a file over many programs are unbounded; tests open one file at a time.", "anchors": ["src/libmugrid/file_io_netcdf.cc: FileIONetCDF::FileIONetCDF, ~FileIONetCDF, open, close, register_field_collection, write, read, append_frame", "src/libmugrid/file_io_base.hh: FileIOBase::OpenMode"]}
{"id": "C101", "title": "The processes of a program that uses a file do not wait for each other for ever", "statement": "When all processes of a program register the same field collections, each with its own subdomain and its own local pixels (possibly none), and call append_frame, write and read with the same arguments, in a program that catches exceptions, they make the same collective calls in the same order from opening the file to closing it, and all come back from every call; the same holds for programs that open the file afterwards.", "quantifier": "all numbers of processes, decompositions, distributions of local pixels, collections with state fields, open modes, sequences of operations, frames and names (valid or not), sequences of programs", "why_tests_cant": "A deadlock shows only in some sequences with some distributions of pixels, and a test that hangs gives no result; sequences and distributions are unbounded.", "anchors": ["src/libmugrid/file_io_netcdf.cc: FileIONetCDF::read, write, register_field_collection, NetCDFVarBase::write, read, NetCDFVarStateField::write, read", "src/libmugrid/file_io_netcdf.hh: ncmu_put_varm_all, ncmu_get_varm_all, ncmu_begin_indep_data, ncmu_end_indep_data"]}
{"id": "C102", "title": "Frame objects and loops over the frames of a file stand for fixed frames", "statement": "A frame object obtained from file[i] or append_frame stands for the same frame for as long as it is used, whatever is appended, written or read meanwhile and whichever exceptions are caught; the loop `for (auto && frame : file)` goes once through the frames that exist when it begins, in order, also if its body appends frames. So a program with frame objects, loops (also nested) and try blocks ends with or without an exception and gets the values as expected of the rows of a table, and so do programs that open the file afterwards; file[i] is refused if there is no frame i.", "quantifier": "all programs built from operator[], append_frame, the functions of frame objects, range-based loops over the file nested to any depth and try blocks; all numbers of processes, decompositions, collections, sequences of programs", "why_tests_cant": "Programs are unbounded; tests use a frame object at once and loop over files that do not grow.", "anchors": ["src/libmugrid/file_io_base.cc: FileIOBase::operator[], append_frame, begin, end, size, FileFrame::read, write", "src/libmugrid/file_io_base.hh: FileFrame, FileIOBase::iterator", "src/libmugrid/file_io_netcdf.cc: FileIONetCDF::read, write"]}
{"id": "C103", "title": "A file object reaches its own file and no other, and none after it has been closed", "statement": "Programs with any number of FileIONetCDF objects, opened, used, closed and destroyed in any order, behave as if every object were tied to the name of its file: whatever ids the library gives and gives again, a call on one object never reads or changes the file of another, a call on a closed object changes no file and no field and returns or throws FileIOError, a second close throws, and the destructor after close does nothing. A call on a closed object that names a field throws.", "quantifier": "all sequences of steps, objects, files, open modes and collections, all choices of unused ids by the library", "why_tests_cant": "Whether an id that is used again leads a closed object to another file depends on the library and on the sequence of steps, of which there is no bound.", "anchors": ["src/libmugrid/file_io_netcdf.cc: FileIONetCDF::FileIONetCDF, ~FileIONetCDF, open, close, read, write, NetCDFVarBase::write, read", "src/libmugrid/file_io_base.cc: FileIOBase::append_frame"]}
{"id": "C104", "title": "Programs with frame objects do the same in the parallel build as in the serial one", "statement": "A program that uses a file only through frame objects (file[i], append_frame, loops over the file, try blocks) ends with the same outcome on all processes in the parallel build (PnetCDF) as in the serial build, with the same values in the fields and the same file, also if calls are refused and the exceptions are caught, and so do the programs that open the file afterwards.", "quantifier": "all programs built from operator[], append_frame, the functions of frame objects, nested loops and try blocks; all numbers of processes, decompositions, distributions of local pixels, sequences of programs", "why_tests_cant": "Programs and distributions are unbounded, and the two builds are never linked into the same test.", "anchors": ["src/libmugrid/file_io_base.cc: FileIOBase::operator[], append_frame, begin, end, FileFrame::read, write", "src/libmugrid/file_io_netcdf.cc: FileIONetCDF::read, write, NetCDFVarBase::write, read", "src/libmugrid/file_io_netcdf.hh: ncmu_put_varm_all, ncmu_get_varm_all, ncmu_begin_indep_data, ncmu_end_indep_data"]}
{"id": "C105", "title": "The processes of programs with frame objects do not wait for each other for ever", "statement": "When all processes of a program run the same code with frame objects (file[i], append_frame, loops over the file, try blocks), each with its own subdomain and its own local pixels (possibly none), they make the same collective calls in the same order from opening the file to closing it, and all come back from every call, also if calls are refused and the exceptions are caught; the same holds for programs that open the file afterwards.", "quantifier": "all programs built from operator[], append_frame, the functions of frame objects, nested loops and try blocks; all numbers of processes, decompositions, distributions of local pixels, sequences of programs", "why_tests_cant": "A test that hangs gives no result, and whether a process is left waiting depends on the program, on the frames in the file and on the distribution of pixels, which are unbounded.", "anchors": ["src/libmugrid/file_io_base.cc: FileIOBase::operator[], append_frame, begin, end, FileFrame::read, write", "src/libmugrid/file_io_netcdf.cc: FileIONetCDF::read, write, register_field_collection, NetCDFVarBase::write, read", "src/libmugrid/file_io_netcdf.hh: ncmu_put_varm_all, ncmu_get_varm_all, ncmu_begin_indep_data, ncmu_end_indep_data"]}
{"id": "C106", "title": "Frames and iterators of a file in python", "statement": "In python, iter(file) gives the frames that the file has at that moment, from the first to the last, each once, and then StopIteration at every further next; reversed(file) gives the same from the last to the first; this does not depend on what happens between two calls of next, be it appended frames, other iterators over the same file or exceptions. A program that keeps any number of frame objects and iterators and uses them in any order gets from every step (len, file[i], append_frame, read, write, next) what is expected when frame objects are rows of a table, if it reads only what has been written and does not ask for file[len(file)]; so do the programs that open the file afterwards.", "quantifier": "all sequences of steps, numbers of frame objects and iterators, indices, numbers of processes, decompositions, collections, sequences of programs", "why_tests_cant": "How steps on iterators, frame objects and the growing file interleave is unbounded; tests go through a file that does not change, with one iterator.", "anchors": ["language_bindings/python/bind_py_file_io.cc: add_file_io_base (__getitem__, __len__, __iter__, append_frame), add_file_frame", "src/libmugrid/file_io_base.hh: FileIOBase::iterator", "src/libmugrid/file_io_base.cc: FileIOBase::operator[], append_frame, begin, end, size, FileFrame::read, write"]}
{"id": "C107", "title": "Frames and iterators in python do the same in the parallel build, and no process waits for ever", "statement": "When all processes run the same python program with frame objects and iterators (file[i], append_frame, iter, reversed, next, read and write of frames, in any order and also after exceptions), each process with its own subdomain and its own local pixels (possibly none), every process gets from every step in the parallel build what the program gets in the serial build, with the same values in the fields and the same file; all make the same collective calls in the same order and come back from every call. The same holds for programs that open the file afterwards. The programs read only what has been written and do not begin to write a local field to a file opened for reading.", "quantifier": "all sequences of steps, numbers of frame objects and iterators, numbers of processes, decompositions, distributions of local pixels, sequences of programs, element conversions that keep values", "why_tests_cant": "A test that hangs gives no result, the two builds are never linked into the same test, and the interleavings of steps are unbounded.", "anchors": ["language_bindings/python/bind_py_file_io.cc: add_file_io_base, add_file_frame", "src/libmugrid/file_io_base.cc: FileIOBase::operator[], append_frame, begin, end, FileFrame::read, write", "src/libmugrid/file_io_netcdf.cc: FileIONetCDF::read, write, register_field_collection, NetCDFVarBase::write, read", "src/libmugrid/file_io_netcdf.hh: ncmu_put_varm_all, ncmu_get_varm_all, ncmu_begin_indep_data, ncmu_end_indep_data"]}
{"id": "C108", "title": "Time stepping with maps over state fields computes the recurrence", "statement": "A program that repeats cycle(); for (auto && w : map) w.current() = G(i, w.old(1), ..., w.old(N)); over a map of a state field computes the recurrence x(t+N+1) = G(x(t+N), ..., x(t+1)) at every pixel or sub-point: after T steps current() and old(k) of every entry are the elements T+N and T+N-k of the sequence. One loop over the map alone sets current() of every entry from its own values and leaves all old values as they were. size() of the map is the number of pixels or sub-points, and the loop runs exactly over these.", "quantifier": "all functions G, memory sizes, numbers of steps, local and global collections, iteration over pixels or sub-points, start values, numbers of cycles before", "why_tests_cant": "The number of steps and the function are unbounded; a test follows a few cycles of one memory size, and whether the slots of the history overlap depends on the memory size.", "anchors": ["src/libmugrid/state_field_map.cc: StateFieldMap::StateFieldMap, begin, end, size", "src/libmugrid/state_field_map.hh: StateFieldMap::Iterator, StateWrapper", "src/libmugrid/state_field.cc: StateField::cycle"]}
