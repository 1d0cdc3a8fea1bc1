{"id": "C01", "title": "Set growth policy always provides enough room", "statement": "Every growable container sizes its buffer with one shared policy. For a requested length s and a current granularity b >= 1, the policy terminates, returns a capacity >= s, returns a whole number of (possibly enlarged) blocks with fewer than one block of slack, returns 0 exactly when s is 0, and the enlarged granularity is the original times a power of eight. The 32-bit version agrees with this for every request up to 2^29 blocks of headroom, and above that it stops terminating.", "quantifier": "all requested lengths and all block sizes, in exact and in 32-bit arithmetic", "why_tests_cant": "The failure is at lengths near 2^30 that no unit test allocates, and the claim is over every (length, block) pair.", "anchors": ["include/set.h: set::bufsize"]}
{"id": "C02", "title": "A sizeable set behaves like a sequence", "statement": "Any history of append, insert-at-position, insert-array, remove-range, resize and empty on sset leaves exactly the elements, in exactly the order, that the same history of insertions and deletions leaves in an ordinary list; length() and inbounds() report that list's length; removal past the end and zero-length operations are rejected without changing the set.", "quantifier": "all histories of operations, all element values, positions and lengths (positions up to the current length)", "why_tests_cant": "The contract is about arbitrary operation histories and positions.", "anchors": ["include/set.h: sset::add, sset::remove, sset::empty, fset::resize, fset::copy"]}
{"id": "C03", "title": "Inserting beyond the end of a sizeable set default-constructs the gap", "statement": "Inserting at a position p beyond the current length leaves every element of the gap [length, p) default constructed, as LEsystem::addload relies on when it creates load group g.", "quantifier": "all set lengths and all positions beyond them", "why_tests_cant": "An unconstructed object usually happens to look like zeroed memory in a test.", "anchors": ["include/set.h: sset::add", "src/pavement.cpp: LEsystem::addload"]}
{"id": "C04", "title": "Sorting an ordered set sorts it and loses nothing", "statement": "oset::sort terminates for every content and leaves a permutation of the previous content in nondecreasing order, touching no element outside the set.", "quantifier": "all lengths and all contents over any totally ordered element type", "why_tests_cant": "The quicksort has a moving pivot, a run-detection shortcut and an insertion sort fallback; correctness needs every permutation and duplicate pattern.", "anchors": ["include/set.h: oset::sort, oset::qsort, oset::isort"]}
{"id": "C05", "title": "Lookup in a sorted set finds a value exactly when it is present", "statement": "On a sorted oset, findvalue(v) returns the lowest position holding v if v is present, and UINT_MAX if it is not, with every probe in bounds; likewise for the sorted-array lookup used by the pavement solver.", "quantifier": "all sorted contents, all lengths, all search values", "why_tests_cant": "Binary search edge cases range over every length and position.", "anchors": ["include/set.h: oset::findvalue", "src/pavement.cpp: findvalue"]}
{"id": "C06", "title": "Compacting an ordered set keeps each distinct value once", "statement": "cset::sort leaves a strictly increasing sequence which contains exactly the values that were in the set before, and every duplicate dropped is destroyed exactly once while no surviving element is.", "quantifier": "all contents and all duplicate patterns", "why_tests_cant": "The block-move compaction has several run-length cases whose interaction depends on the duplicate pattern.", "anchors": ["include/set.h: cset::compact, cset::sort"]}
{"id": "C07", "title": "An indexed set keeps insertion order and gives a sorted view", "statement": "After any history of add, remove and empty on an iset, plain indexing returns the distinct values in insertion order, sorted access (getindex) enumerates every element exactly once in strictly increasing order, and hasvalue finds a value exactly when it is present and returns its position; rejected calls leave the set unchanged.", "quantifier": "all histories, contents and positions", "why_tests_cant": "The index must stay a permutation through every history.", "anchors": ["include/set.h: iset::add, iset::remove, iset::getindex, iset::hasvalue"]}
{"id": "C08", "title": "Keyed sets are finite maps", "statement": "ksset behaves as a finite map with unique keys in insertion order: add of a new key appends, add of an existing key replaces the value in place, remove erases exactly that key and keeps the order of the others, haskey returns its position or UINT_MAX, and key lookup returns the most recently added value.", "quantifier": "all histories of add, remove and lookup over all keys and values", "why_tests_cant": "Agreement with a map is a statement over every history.", "anchors": ["include/set.h: kfset::haskey, ksset::add, ksset::remove, kfset::getkey"]}
{"id": "C09", "title": "Ordered and indexed keyed sets find keys after sorting", "statement": "After any history, with sorts interleaved anywhere, koset and kiset look up every key that was added and not removed, return the value last stored with it, and report every other key as absent; koset's keys are strictly increasing after sort; kiset keeps plain positions in insertion order and its order index enumerates elements by strictly increasing key.", "quantifier": "all contents and keys", "why_tests_cant": "Requires every key set and search key.", "anchors": ["include/set.h: koset, kiset"]}
{"id": "C10", "title": "Associative sets remove the key they are asked to remove", "statement": "asset::remove(k) removes exactly the pair with key k, leaving all the other key/value pairs, their pairing and their order unchanged, and never touches memory outside the set.", "quantifier": "all contents, all keys present, at all positions", "why_tests_cant": "Whether the wrong neighbour is removed depends on the position; a one-element test may not reveal it.", "anchors": ["include/set.h: asset::remove"]}
{"id": "C11", "title": "Sorting associative sets keeps keys with their values", "statement": "aoset::sort and avoset::sort leave a permutation of the (key, value) pairs, ordered by key or by value respectively; no key is ever paired with another key's value.", "quantifier": "all contents including duplicate values", "why_tests_cant": "Two parallel arrays must move in lock-step for every permutation.", "anchors": ["include/set.h: aoset::sort, avoset::sort"]}
{"id": "C12", "title": "The AVL map is a finite map", "statement": "After any history of add and remove on ktree_avl, lookup of k returns the value most recently added for k and not since removed, haskey answers membership, and length() counts the distinct keys. This should hold both for self-keyed values and for separate key and value types, as the library's handle registries use.", "quantifier": "all histories of add/remove/lookup over any ordered key type", "why_tests_cant": "Deletion of interior nodes after arbitrary rotations happens only on some histories.", "anchors": ["include/tree.h: ktree_avl::add, ktree_avl::remove, tree::haskey, tree::getkey", "libop/libop.cpp: lesystems, tokens"]}
{"id": "C13", "title": "The AVL tree stays ordered and balanced", "statement": "After any history of add and remove, an in-order walk of ktree_avl yields strictly increasing keys, every node's stored height is its true height, sibling heights differ by at most one, and so the depth is at most logarithmic (at most 1.45 log2(n+1)) in the number n of elements.", "quantifier": "all histories of add and remove", "why_tests_cant": "Balance is an inductive invariant over rotation sequences.", "anchors": ["include/tree.h: ktree_avl::append, ktree_avl::remove, ktree_avl::rebalance, rotate_left, rotate_right"]}
{"id": "C14", "title": "Order statistics of the tree are exact", "statement": "For a tree of n elements, getatorder(i) is the i-th smallest element for every i < n, getorderof(k) is the number of keys smaller than k when k is present, the two are inverse to one another, and stored subtree weights always equal the number of nodes.", "quantifier": "all reachable trees, all ranks and keys", "why_tests_cant": "Weights are maintained incrementally through rotations and removals.", "anchors": ["include/tree.h: tree::getatorder, tree::getorderof, tree::order, new_weight"]}
{"id": "C15", "title": "Element positions survive removals", "statement": "Elements of a tree are addressable by dense positions 0..n-1; removing the element at position p keeps every other element, moves exactly the elements above p down by one, and leaves the tree's links consistent with the moved storage.", "quantifier": "all trees and all removed positions", "why_tests_cant": "The link rewrite touches every node of an arbitrary tree.", "anchors": ["include/tree.h: tree::expunge, tree::getatposition, tree::getposition"]}
{"id": "C16", "title": "The left-leaning red-black map is a balanced finite map", "statement": "After any history of add on ktree_llrb, keys are in strictly increasing in-order, no red link leans right, no three red links are consecutive (the tree is a 2-3-4 tree), every root-to-leaf path has the same number of black links, lookups return the last value added, and rank queries are exact.", "quantifier": "all insertion histories", "why_tests_cant": "Requires induction through split/rotate cases.", "anchors": ["include/tree.h: ktree_llrb::append, ktree_llrb::add, BST::insert"]}
{"id": "C17", "title": "Removing a missing key from the pointer tree is harmless", "statement": "BST::remove(k) for a key k that is not in the tree leaves the tree unchanged and does not dereference a null pointer.", "quantifier": "all trees and all absent keys", "why_tests_cant": "Whether the descent falls off a right branch depends on shape and key.", "anchors": ["include/tree.h: BST::remove"]}
{"id": "C18", "title": "Table addressing is a bijection", "statement": "For a table over axes of sizes n_d-1 x ... x n_0, mapping a tuple of in-range positions to a storage index is injective, lands in [0, product of sizes), and hits every storage index.", "quantifier": "all numbers of axes, all sizes, all position tuples", "why_tests_cant": "Number of axes and sizes are unbounded.", "anchors": ["include/table.h: make_index, length, step"]}
{"id": "C19", "title": "Adding a row or column to a table preserves every other cell", "statement": "When an element is inserted at position p of axis d, every old cell keeps its value at its shifted coordinates, whatever the sizes of all axes, and the new cells are exactly those whose coordinate on d is p; no read or write leaves the buffer.", "quantifier": "all axis counts, sizes, positions and cell contents", "why_tests_cant": "In-place block moves overlap in size-dependent ways.", "anchors": ["include/table.h: table::add"]}
{"id": "C20", "title": "Removing a row or column from a table preserves every other cell", "statement": "When the element at position p of axis d is removed, every other cell keeps its value at its shifted coordinates and exactly the cells with coordinate p vanish; no read or write leaves the buffer.", "quantifier": "all axis counts, sizes, positions and contents", "why_tests_cant": "In-place block moves overlap in size-dependent ways.", "anchors": ["include/table.h: table::remove"]}
{"id": "C21", "title": "A table always agrees with its axes", "statement": "After any history of additions, removals and clears of axis elements the table's extent along each axis equals the length of that axis.", "quantifier": "all histories over all axes", "why_tests_cant": "Needs a clear of one axis while the others are non-empty, then further growth.", "anchors": ["include/table.h: table::empty, table::handler", "include/axis.h: axis::empty"]}
{"id": "C22", "title": "Dependent axes follow their parent axis", "statement": "A dependent axis is kept sorted by (parent position, key); after any addition or removal of parent elements every remaining entry still refers to the same parent element, and removing a parent element removes exactly the entries that belonged to it, announcing each removal.", "quantifier": "all parent/child histories", "why_tests_cant": "Renumbering must hold for every history and every number of entries per parent.", "anchors": ["include/axis.h: axis<K,Ks...>::handler, add, remove"]}
{"id": "C23", "title": "Singly linked lists keep their elements", "statement": "list_single behaves like a sequence: insert before an element places the new element there, remove deletes only the given element, push/pop work at the ends, and the chain stays finite and acyclic.", "quantifier": "all histories of operations", "why_tests_cant": "Cycles and lost elements appear only for particular positions.", "anchors": ["include/list.h: list_single::insert, list_single::remove, push, pop, length"]}
{"id": "C24", "title": "Doubly linked and owned lists stay consistent", "statement": "After any history of element creation (before/after any element or at the end) and destruction, forward and backward traversal of an owned list visit the same elements in opposite order, first and last are the ends, the length is the number of live elements, and the k-th layer query returns the k-th element.", "quantifier": "all histories of creation and destruction", "why_tests_cant": "Link consistency is an inductive invariant over arbitrary histories.", "anchors": ["include/list.h: listelement_o, list_owned, listelement_d, list_double", "src/pavement.cpp: LEsystem::addlayer, removelayer, layer"]}
{"id": "C25", "title": "Events reach each attached listener once, in order", "statement": "A dispatched message is delivered exactly once to every listener attached to the dispatcher and to no detached one, in attachment order as modified by before-insertion; destroying either side leaves no dangling registration on the other.", "quantifier": "all attach/detach/destroy/dispatch histories", "why_tests_cant": "Registrations are double-ended raw links; correctness is over histories.", "anchors": ["include/listen.h: dispatcher, listener"]}
{"id": "C26", "title": "Nested progress events stay within their table", "statement": "Progress reporting with nested start/stop pairs never indexes outside its three levels, and unbalanced stops are ignored.", "quantifier": "all sequences of start, progress and stop events", "why_tests_cant": "Needs all event sequences.", "anchors": ["include/event.h: event_progress"]}
{"id": "C27", "title": "The task queue delivers each result exactly once, in submission order", "statement": "Under every interleaving of the submitting thread and any number of workers, each submitted task is run at most once, results are delivered in submission order exactly once, and when draining finishes without abort every task has been run and delivered.", "quantifier": "all thread schedules, all numbers of tasks and workers", "why_tests_cant": "Schedules cannot be enumerated by tests.", "anchors": ["include/task.h: task_queue::enqueue, worker, result, drain"]}
{"id": "C28", "title": "Draining the task queue terminates, also after an abort", "statement": "From every reachable state of the task queue some thread can make progress until draining has finished, including after abort is requested while tasks are still queued.", "quantifier": "all schedules and abort points", "why_tests_cant": "Livelock exists only for particular abort timing.", "anchors": ["include/task.h: task_queue::drain, abort, ~task_queue"]}
{"id": "C29", "title": "The slab allocator hands out disjoint, aligned, in-bounds blocks", "statement": "Blocks returned by the slab cache between resets are 16-byte aligned, pairwise disjoint, at least as large as requested, and inside the memory obtained from the system.", "quantifier": "all sequences of requests of all sizes", "why_tests_cant": "Overruns need a particular sequence of sizes around the page size.", "anchors": ["include/cache.h: slab_cache::allocate, create, reset"]}
{"id": "C30", "title": "Replaying requests after a reset returns the same blocks", "statement": "After reset, repeating the same sequence of requests returns the same addresses in the same order, as the pavement solver assumes when it reuses previously computed tables.", "quantifier": "all request sequences", "why_tests_cant": "Differences need sequences that spill over several slabs.", "anchors": ["include/cache.h: slab_cache::reset, slab_cache::allocate", "src/pavement.cpp: LEsystem::calculate"]}
{"id": "C31", "title": "Fixed-point numbers round to nearest and keep order", "statement": "Conversion of a real to fixed<P> picks the nearest representable value with ties away from zero, integers convert exactly and back, addition, subtraction, increment and comparison are exact on the represented values as long as the result is in range.", "quantifier": "all precisions P, all in-range values", "why_tests_cant": "Covers every value and precision.", "anchors": ["include/fixed.h: fixed"]}
{"id": "C32", "title": "Constant strings compare consistently", "statement": "For constant strings the order is a total order that agrees with lexicographic order of the characters, equality is exactly equality of the character sequences, and inequality is exactly its negation.", "quantifier": "all pairs and triples of strings", "why_tests_cant": "Disagreement needs hash collisions or embedded prefixes.", "anchors": ["include/conststr.h: conststr::compare, operator==, operator!=, fnv1a_hash"]}
{"id": "C33", "title": "Binomial coefficients are exact", "statement": "choose(n,k) returns the binomial coefficient, every intermediate division being exact, for all n and k whose intermediate products do not overflow, and returns 0 for k > n.", "quantifier": "all n and k", "why_tests_cant": "The incremental division is exact only by an arithmetic argument.", "anchors": ["include/mathplus.h: choose"]}
{"id": "C34", "title": "Random doubles stay in their advertised intervals", "statement": "From every seed and after any number of draws, the generator's output lies in [1,2), [0,1), (0,1] or (0,1) as requested, and its cursor never leaves the state array. Generators made from different seeds and asked for the same numbers never reach the same state, and the sequence of states comes back to where it began.", "quantifier": "all seeds, all numbers and kinds of draws", "why_tests_cant": "State space of 2^24000; open-interval endpoints are hit with probability 2^-52.", "anchors": ["include/rng.h: rng::seed, regen, c1o2, c0o1, o0c1, o0o1"]}
{"id": "C35", "title": "Each random variable is rolled once per trial", "statement": "Within a trial every registered random variable is sampled exactly once, in sort-key order, however many references to it exist; realizations stay valid while referenced and reference counts equal the number of live references.", "quantifier": "all histories of creation, copying, assignment and destruction", "why_tests_cant": "Lifetime errors depend on history.", "anchors": ["include/randomvar.h: house, randomvar, realization, realized"]}
{"id": "C36", "title": "Variant access is type safe and read/write tracking is sound", "statement": "A variant's type never changes after construction, reading or assigning with another type is rejected without changing the stored value, and the read/written/used flags reject exactly the cyclic use they are meant to reject.", "quantifier": "all histories of set/get/mark operations over all types", "why_tests_cant": "Histories over the flag lattice.", "anchors": ["include/variant.h"]}
{"id": "C37", "title": "Matrix expressions evaluate to what they denote", "statement": "Evaluating a lazy matrix expression to dense form gives the same entries as elementwise access of the expression: negation, transposition, sum, difference, product and scaling.", "quantifier": "all dimensions, all expressions, all entries", "why_tests_cant": "Dimension-generic algebra.", "anchors": ["include/matrix.h: matrix_operator::getdense, matrix_dense", "include/tmatrix.h"]}
{"id": "C38", "title": "In-place transposition transposes", "statement": "transpose(m,n,A) turns the row-major m x n matrix into the row-major n x m transpose, in place, for every m and n, and terminates; applying it twice restores the input.", "quantifier": "all shapes and contents", "why_tests_cant": "Cycle structure of the permutation depends on the factorisation of mn-1.", "anchors": ["src/linalg.cpp: transpose"]}
{"id": "C39", "title": "Packed band and triangular storage addresses each entry once", "statement": "Band and triangular index maps are injective on the stored entries, stay below the advertised storage size, and cover it.", "quantifier": "all orders n, band widths and stored index pairs", "why_tests_cant": "Off-by-one in the corner of the band shows only for particular n, w.", "anchors": ["include/linalg.h: T_SIZE, T_IDX, B_SIZE, B_IDX"]}
{"id": "C40", "title": "Gaussian elimination solves the system", "statement": "In exact arithmetic equ_gauss returns x with A x = b whenever it returns, and signals a singular matrix otherwise; inv_mul_gauss returns inv(A) B and the determinant.", "quantifier": "all orders and all matrices", "why_tests_cant": "Pivot order depends on the data; determinant sign errors need an odd permutation.", "anchors": ["src/linalg.cpp: equ_gauss, inv_mul_gauss"]}
{"id": "C41", "title": "LU factorisation reproduces the permuted matrix and solves", "statement": "In exact arithmetic, decmp_lu succeeds on every nonsingular matrix and gives unit-lower and upper factors with P A = L U for the recorded row exchanges; bksub_lu then solves A x = b, and inv_lu inverts.", "quantifier": "all orders and all nonsingular matrices", "why_tests_cant": "Pivoting and implicit scaling vary with data.", "anchors": ["src/linalg.cpp: decmp_lu, bksub_lu, equ_lu, inv_lu"]}
{"id": "C42", "title": "Cholesky factorisation (full, packed and banded) solves", "statement": "In exact arithmetic, if decmp_chol returns then L L^T = A on the stored triangle/band, and bksub_chol returns x with A x = b; the banded version agrees with the full version on banded matrices; non positive pivots are reported.", "quantifier": "all orders, band widths and matrices", "why_tests_cant": "Index arithmetic of the band is size dependent.", "anchors": ["src/linalg.cpp: decmp_chol, bksub_chol, equ_chol"]}
{"id": "C43", "title": "LDL factorisation solves", "statement": "In exact arithmetic, if decmp_ldl returns then L D L^T = A and bksub_ldl solves A x = b.", "quantifier": "all orders and all symmetric matrices", "why_tests_cant": "Recurrences over all orders.", "anchors": ["src/linalg.cpp: decmp_ldl, bksub_ldl, equ_ldl"]}
{"id": "C44", "title": "The inverse FFT undoes the forward FFT", "statement": "In exact arithmetic, for every power-of-two length, the inverse complex transform after the forward transform multiplies the data by N, scaling divides by N, and pointwise multiplication in between gives cyclic convolution.", "quantifier": "all power-of-two lengths and all data", "why_tests_cant": "Recursion depth and ordering vary with length.", "anchors": ["include/fft.h: fftc, fftc_un, scale, mul"]}
{"id": "C45", "title": "Interpolated temperatures agree with nodes and stay consistent", "statement": "Interpolation returns the nodal temperature at a node, the boundary temperatures outside the mesh, and reproduces every polynomial of degree up to the element order inside the mesh, never reading outside the mesh.", "quantifier": "all meshes, node temperatures, sorted depth lists and element orders", "why_tests_cant": "Search and shape functions range over all meshes.", "anchors": ["src/thermal.cpp: FEMthermal::interpolate"]}
{"id": "C46", "title": "Thermal equilibrium is preserved by time stepping", "statement": "In exact arithmetic, if the whole profile is at temperature T and both boundaries are held at T, any number of steps leaves the profile at T; the boundary nodes always take the imposed temperatures.", "quantifier": "all meshes, diffusivities, time steps and step counts", "why_tests_cant": "Induction over steps; assembly over all meshes.", "anchors": ["src/thermal.cpp: FEMthermal::FEMthermal, FEMthermal::step"]}
{"id": "C47", "title": "Principal stresses are the eigenvalues of the stress tensor", "statement": "principle() ends for every stress state. The reported principal stresses are, in increasing order, the eigenvalues of the stress tensor to within 1e-15, with an orthonormal basis of eigenvectors to the same error, and their sum is the trace. Every eigenvalue of the tensor is among them. The three shear values are half their differences in increasing order, and strains follow Hooke's law.", "quantifier": "all stress states, moduli and Poisson ratios", "why_tests_cant": "Holds for all real stress states.", "anchors": ["src/pavement.cpp: pavedata::principle", "fem3d/fem3d.cpp: principle"]}
{"id": "C48", "title": "The layered elastic coefficients satisfy the boundary conditions", "statement": "For every wave number the layer coefficients computed by the solver give zero surface shear, unit surface pressure, and (bonded layers) continuous vertical and shear stress and displacement across every interface.", "quantifier": "all layer counts, thicknesses, moduli, Poisson ratios and wave numbers", "why_tests_cant": "Continuum of parameters, unbounded layer count.", "anchors": ["src/pavement.cpp: buildabcd, buildT"]}
{"id": "C49", "title": "Rotating axisymmetric results to Cartesian axes preserves the stress tensor", "statement": "Adding a load's axisymmetric stresses to a point yields the tensor rotated by the load's bearing: trace and second invariant are preserved, results superpose linearly over loads, and the special cases on the axes agree with the general formula.", "quantifier": "all bearings, loads and stress values", "why_tests_cant": "Special-cased branches must agree with the general formula everywhere.", "anchors": ["src/pavement.cpp: axialdata::addtodata"]}
{"id": "C50", "title": "Pavement results are never stale", "statement": "Results can be read only after a successful calculation with no later change to layers, loads or evaluation points, and then the i-th result belongs to the i-th current evaluation point; in particular after a back-calculation.", "quantifier": "all histories of edits, calculations, back-calculations and reads", "why_tests_cant": "Stale caches appear only for certain histories.", "anchors": ["src/pavement.cpp: LEsystem mutators, calculate, check, LEbackcalc::backcalc", "src/pavement.h: LEsystem::result"]}
{"id": "C51", "title": "Every evaluation point is assigned the layer that contains it", "statement": "After the structure check succeeds every evaluation point added without an explicit layer is assigned the unique layer whose depth interval contains it, also after layers have been changed since an earlier check; points above or explicitly outside their layer are rejected.", "quantifier": "all layer structures and points and edit histories", "why_tests_cant": "Boundary depths and history dependence.", "anchors": ["src/pavement.cpp: LEsystem::check"]}
{"id": "C52", "title": "Evaluation points are ordered consistently", "statement": "The comparison functions for points are total orders consistent with equality: antisymmetric, transitive, and zero only for equal points.", "quantifier": "all pairs and triples of points", "why_tests_cant": "Violations need special triples.", "anchors": ["src/pavement.h: point2d, point3d, pavepoint compare", "src/pavement.cpp: zpoint::compare"]}
{"id": "C53", "title": "Handles of the C interface are unique and die when reset", "statement": "OP_LE_Create returns a handle distinct from every live one; after OP_LE_Reset(h) the handle h is invalid, its system is destroyed exactly once, and every other live handle still refers to its own system.", "quantifier": "all histories of create/reset", "why_tests_cant": "Corruption needs resets of interior tree nodes.", "anchors": ["libop/libop.cpp: OP_LE_Create, OP_LE_Reset, OP_HT_Init, OP_HT_Reset"]}
{"id": "C54", "title": "Layers are inserted where the caller asks", "statement": "Inserting a layer at position p puts it before the p-th layer, appending puts it last, removal deletes exactly the p-th, and the others keep their order; layer tops are the sums of the thicknesses above.", "quantifier": "all histories of layer edits", "why_tests_cant": "Positions and histories are unbounded.", "anchors": ["src/pavement.cpp: LEsystem::addlayer, removelayer", "src/pavement.h: LElayer::top, bottom", "libop/libop.cpp: OP_LE_InsertLayer"]}
{"id": "C55", "title": "Fixed-width integer fields parse to their value", "statement": "str2int returns the value of the optionally signed, space-padded decimal number in the first w characters and never reads beyond them.", "quantifier": "all strings and widths", "why_tests_cant": "All field contents.", "anchors": ["src/traffic.cpp: str2int"]}
{"id": "C56", "title": "Every accepted vehicle is counted exactly once", "statement": "Processing a vehicle record increments exactly one of the short, light-per-lane or heavy-per-lane counters or is rejected without changes; a heavy vehicle's axles are partitioned into consecutive groups, each counted in exactly one existing load bin of its lane.", "quantifier": "all record contents", "why_tests_cant": "All axle counts, spacings and weights.", "anchors": ["src/traffic.cpp: WIMday::AddRSAVehicle"]}
{"id": "C57", "title": "Survey totals are the sums of the days in range", "statement": "Reading a binary survey adds each stored day within the date range exactly once; day totals add componentwise.", "quantifier": "all files and date ranges", "why_tests_cant": "End-of-file handling is data independent of most tests' tolerance.", "anchors": ["src/traffic.cpp: WIMsurvey::Read, WIMday::operator+="]}
{"id": "C58", "title": "Root finding returns a root inside the bracket", "statement": "When fzero returns after bracketing, the returned point lies between the initial bracket's limits and the function changes sign across the maintained bracket at every iteration; bounded iteration counts guarantee termination.", "quantifier": "all functions and starting points", "why_tests_cant": "Adaptive steps depend on an arbitrary function.", "anchors": ["src/numerics.cpp: fzero_core"]}
{"id": "C59", "title": "Minimisation never returns a worse point than it has seen", "statement": "fmin_brent keeps its best point inside the bracket, returns the best point evaluated in the refinement phase, and terminates within its iteration limit.", "quantifier": "all functions and brackets", "why_tests_cant": "Adaptive steps depend on an arbitrary function.", "anchors": ["src/numerics.cpp: fmin_brent"]}
{"id": "C60", "title": "One-dimensional shape functions of the finite elements", "statement": "Each one-dimensional shape function is one at its own node and zero at the others, and its stated derivative is its derivative; those of bounded elements and the mapping functions of infinite ends sum to one, their derivatives sum to zero, and those of bounded elements reproduce the coordinate.", "quantifier": "all local coordinates and element types", "why_tests_cant": "Continuum of coordinates.", "anchors": ["fem3d/fem3d.cpp: N_2, N_A, N_3, N_4, dN_2, dN_3, dN_4, Mpi, Mni"]}
{"id": "C61", "title": "The rank query of an indexed set is the inverse of sorted access", "statement": "getorder(i) of an indexed set returns the place of element i in sorted access, so getindex(getorder(i)) is element i.", "quantifier": "all histories and all positions, for both indexed set classes", "why_tests_cant": "A sorted or nearly sorted test set has identical index and inverse index.", "anchors": ["include/set.h: iset::getorder, kiset::getorder"]}
{"id": "C62", "title": "Removing by reference equals removing by value", "statement": "ktree_avl::remove(k) called with a reference to the key of an element stored in the tree removes that element exactly as if the key had been copied first.", "quantifier": "all trees and all stored elements", "why_tests_cant": "Whether the stored key is overwritten before the recursive call depends on the shape of the tree at that element.", "anchors": ["include/tree.h: ktree_avl::remove", "include/axis.h: axis::remove"]}
{"id": "C63", "title": "The pointer tree is a finite map while present keys are removed", "statement": "Any history of BST::insert and of BST::remove on keys that are present runs without dereferencing a null pointer, lookups return what the last insert or remove of the key left, and the tree stays a left-leaning red-black tree whose depth is at most three times the logarithm of its size.", "quantifier": "all histories whose removals name present keys", "why_tests_cant": "Removal moves red links through shapes that a few literal trees do not reach.", "anchors": ["include/tree.h: BST::insert, BST::remove, BST::get"]}
{"id": "C64", "title": "Lookups outside the axes of a table are rejected", "statement": "Reading or assigning a table cell through a key that is not on its axis, or through a position that is not below the extent of its axis, throws and does not touch another cell.", "quantifier": "all histories, all key tuples, all position tuples", "why_tests_cant": "A position past the end of an inner axis falls on a valid cell of the next row, so no crash shows it.", "anchors": ["include/table.h: operator(), from_keys, make_index"]}
{"id": "C65", "title": "Every cell of a table is an object", "statement": "A table made over axes that already have elements has one constructed cell for each tuple of keys, so that reading, removing and destroying are defined.", "quantifier": "all axes contents at construction, all cell types", "why_tests_cant": "Whether raw memory is read depends on the contents of the axes when the table is made.", "anchors": ["include/table.h: table::table, table::allocate, table::remove"]}
{"id": "C66", "title": "Destroying a plain doubly linked list frees its elements", "statement": "Inserting new elements at either end of a list_double keeps both traversals consistent, and emptying or destroying the list destroys each element once and ends with an empty list.", "quantifier": "all lists of plain (not owned) elements", "why_tests_cant": "Nothing instantiates the plain list today; a use after free depends on the allocator.", "anchors": ["include/list.h: list_double::insert, push, empty, ~list_double, listelement_d"]}
{"id": "C67", "title": "Real transforms invert and convolve", "statement": "Transforming a real array of a power-of-two length, scaling and transforming back returns the array; multiplying two real transforms with fftr_mul in between gives the cyclic convolution of the data, which the array holds with the entry of the second half beside that of the first.", "quantifier": "every power-of-two length from 2, all data", "why_tests_cant": "Real and complex stages alternate through the recursion; a misplaced pair or a wrong scale of the first two entries shows only for some lengths and data.", "anchors": ["include/fft.h: fftr, fftr_un, fftr_scale, fftr_mul"]}
{"id": "C68", "title": "Partially bonded interfaces obey the slip law", "statement": "For layers bonded with a factor between 0 and 1 the solver divides by no zero, the surface and continuity conditions still hold, and the jump of the radial displacement across the interface is the one the slip law gives for the shear stress there.", "quantifier": "all valid pavements with any slip factors, all wave numbers", "why_tests_cant": "The system becomes singular only at particular wave numbers, which the quadrature may or may not hit.", "anchors": ["src/pavement.cpp: buildabcd, buildT, LEsystem::check"]}
{"id": "C69", "title": "Asking for gradients leaves the results alone and gives difference quotients", "statement": "A calculation with deflection gradients reports the same deflections and strains as one without, and the gradient of a layer is the difference quotient of the deflections that two separate calculations report, one of them with the modulus of that layer raised by the step.", "quantifier": "all pavements, all load groups with any number of load radii, all points", "why_tests_cant": "A wrong modulus left over from the previous radius changes results by about 1e-8, below the tolerance of any test.", "anchors": ["src/pavement.cpp: LEsystem::calculate (gradient loop)"]}
{"id": "C70", "title": "Back-calculation steps are the least squares steps of the deflections measured", "statement": "The Kalman and Gauss-Newton steps minimise the (regularised) squared misfit of the linearised deflections, where the gradient of a deflection is the one of the load group it was measured under; if the present moduli reproduce the measurements exactly, they are kept.", "quantifier": "all deflection bowls, load groups, gradients, noise and precision settings", "why_tests_cant": "Optimality is over a continuum of steps, and the exact fit is a single point.", "anchors": ["src/pavement.cpp: LEbackcalc::kalman, gaussnewton", "src/pavement.h: LEsystem::result"]}
{"id": "C71", "title": "The integration stops only when nothing more is added", "statement": "The results of a point are those of the sum over all integration points in the precise modes; in the fast modes they are those of an initial part of the intervals, left off only after a block that changed every sum by at most the mode's tolerance. Other points, loads and depths calculated at the same time do not matter.", "quantifier": "all pavements, points, load radii, tolerances and interval lists", "why_tests_cant": "Which intervals are skipped depends on all points together.", "anchors": ["src/pavement.cpp: axialdata::accumulate, finalize, LEsystem::calculate"]}
{"id": "C72", "title": "Dates in records decode to the date they name", "statement": "A YYMMDD field gives that year, month and day, 69-99 in the 20th century and 00-68 in the 21st; only 000000 is no date.", "quantifier": "all dates", "why_tests_cant": "Every combination of digits, including the century rule.", "anchors": ["src/traffic.cpp: str2time"]}
{"id": "C73", "title": "Reading a line takes exactly one line", "statement": "fgetln stores the characters of the next line, unprintable ones replaced by spaces, cut to the buffer and terminated, and leaves the file at the next line, whatever the length of the line.", "quantifier": "all files, line lengths and buffer sizes", "why_tests_cant": "Long lines, missing line ends and arbitrary bytes.", "anchors": ["src/traffic.cpp: fgetln"]}
{"id": "C74", "title": "Processing record files counts every record of a covered day once", "statement": "Processing a list of record files never leaves the buffers, and each counter of the survey grows by the sum over all vehicle records of covered days of what the record adds on its own, however the days are ordered and split over files; the days written sum to the same over all days.", "quantifier": "all file contents, any number of files", "why_tests_cant": "Day changes can fall anywhere, and files may contain any bytes.", "anchors": ["src/traffic.cpp: WIMsurvey::ProcessRSAFile, WIMsurvey::ProcessRSADir"]}
{"id": "C75", "title": "Time steps of the heat flow follow one scheme", "statement": "Every time step of the thermal solver satisfies the Crank-Nicolson equations of the assembled heat flow at the inner nodes: the heat gained over the step is that of the mean of the fluxes before and after, and the equations with the imposed end temperatures determine the new profile.", "quantifier": "all layers, meshes, element orders, time steps, initial profiles and histories of end temperatures", "why_tests_cant": "A statement on every step of every history; the state kept between steps is not visible.", "anchors": ["src/thermal.cpp: FEMthermal::FEMthermal, FEMthermal::step"]}
{"id": "C76", "title": "Time stepping of the heat flow is stable", "statement": "With the ends held at the temperatures of an equilibrium profile, the integral of the squared distance to the equilibrium never grows from step to step, whatever the time step.", "quantifier": "all meshes, diffusivities, initial profiles, time steps and step counts", "why_tests_cant": "Unconditional stability is a statement on all time steps and all profiles.", "anchors": ["src/thermal.cpp: FEMthermal::step"]}
{"id": "C77", "title": "The thermal solver accepts exactly the meshes that fit the layers", "statement": "Construction succeeds for every mesh of whole elements of order 1, 2 or 4 in which each element lies within one layer, with positive thicknesses, diffusivities and time step; it rejects meshes that do not fit with an exception and never reads outside its arrays.", "quantifier": "all layer and node arrays", "why_tests_cant": "Failure of the decomposition or a read past the layers depends on every value.", "anchors": ["src/thermal.cpp: FEMthermal::FEMthermal"]}
{"id": "C78", "title": "Thermal element matrices are consistent with the interpolation", "statement": "The conduction and heat matrices of each element order are the exact integrals of products of the derivatives, and of the values, of the functions by which temperatures are interpolated; these functions add to one and are one at their own node and zero at the others.", "quantifier": "all element orders and node pairs, and all points of an element", "why_tests_cant": "A wrong entry changes results by a little in all cases.", "anchors": ["src/thermal.cpp: Ke1, Ke2, Ke4, Fe1, Fe2, Fe4, FEMthermal::interpolate"]}
{"id": "C79", "title": "Results through the C interface are those of the current pavement", "statement": "After any history of calls on a handle of the C interface, the result calls either report an error, or give for each point the numbers of a calculation with the layers, loads and points the handle holds at that moment, and of the kind last asked for; a change after the calculation makes them report an error until the next calculation.", "quantifier": "every history of calls on a handle, every group and result number", "why_tests_cant": "The caching of results depends on the order of every earlier call on the handle.", "anchors": ["libop/libop.cpp: OP_LE_Calculate, OP_LE_Result, OP_LE_Results, OP_LE_GroupResult, OP_LE_GroupResults"]}
{"id": "C80", "title": "Numbers of layers, loads and groups in the C interface", "statement": "Layers, loads, groups and points are numbered from one in every call of the C interface, a number that does not exist is refused without a change, and no call on a handle is undefined.", "quantifier": "every history of calls, every number", "why_tests_cant": "Whether a number is valid depends on the whole history of additions and removals.", "anchors": ["libop/libop.cpp: OP_LE_InsertLayer, OP_LE_RemoveLayer, OP_LE_AddGroupLoad, OP_LE_RemoveGroupLoad, OP_LE_RemoveGroup, OP_LE_RemoveAllLoadGroups"]}
{"id": "C81", "title": "A pavement calculated in a single call", "statement": "The call that takes all layers, loads and points at once returns success only if each point got the numbers of its own coordinates and layer, for the given layers and loads; a calculation that cannot be made is reported, and so is a back-calculation that did not converge.", "quantifier": "every list of layers, loads and points, and every flag", "why_tests_cant": "The points may repeat, share places in different layers or leave the layer open, in any order.", "anchors": ["libop/libop.cpp: OP_LE_Calc, OP_LE_BackCalc"]}
{"id": "C82", "title": "Matrices that share storage behave as values", "statement": "Whatever sequence of constructions, copies, assignments, negations, transpositions, unref operations and destructions is made, each matrix reads, sizes and compares as if it held its own copy, nothing is read after it was freed, and all storage is freed when the last matrix is destroyed.", "quantifier": "all sequences of calls on any number of matrices, all dimensions and entries", "why_tests_cant": "Reference counts go wrong only for particular interleavings of sharing and destruction.", "anchors": ["include/matrix.h: matrix, matrix_storage_ptr, matrix_operator"]}
{"id": "C83", "title": "Fixed-size matrix expressions evaluate to what they denote", "statement": "An expression of fixed-size matrices built from transposition, negation, sums, differences, products, scaling, elementwise division and diagonals has the entries of the corresponding matrix algebra; assigning it, adding it to or subtracting it from a matrix stores those entries, also when the matrix occurs in the expression.", "quantifier": "all sizes, all expressions, all entries", "why_tests_cant": "Template recursion over sizes and expression shapes.", "anchors": ["include/tmatrix.h: tmatrix, tmatrix_expr, meta_assign, meta_multiply"]}
{"id": "C84", "title": "Pointers stored in variants are deleted exactly once", "statement": "A pointer stored in a variant functor is owned by the variable: the object is deleted exactly when the variable is given another pointer or destroyed, and never while a live variable still holds the pointer; every sequence of copies, moves, assignments and destructions is defined.", "quantifier": "all sequences of calls on any number of variables holding pointers", "why_tests_cant": "Double deletion needs particular sequences of copies and destructions and often goes unnoticed.", "anchors": ["include/variant.h: wrap_type, vunctor::store::set, vunctor::store::set_t, vunctor::store::clear"]}
{"id": "C85", "title": "Shape functions of the solid elements", "statement": "In a finite element block, an element with optional nodes in the middle of its sides and an element that adapts quadratic to linear neighbours, each shape function is 1 at its own node and 0 at every other, the functions add up to 1 and their derivatives to 0 at every point, whichever optional nodes are present.", "quantifier": "every shape per direction, every pattern of optional nodes, every point", "why_tests_cant": "There are 32 patterns per level and any number of levels and points; tests build a few meshes.", "anchors": ["fem3d/fem3d.cpp: buildSF_block, buildSF_variable, buildSF_adaptor, setup_mask"]}
{"id": "C86", "title": "Stiffness of a finite element", "statement": "The stress at a point follows Hooke's law for the modulus and Poisson's ratio of the material. The stiffness matrix of an element is symmetric, the energy of any displacement is not negative and is zero exactly if nothing is strained; displacements that vary linearly give their exact strain, and rigid motions cause no forces. The small linear systems in between are solved exactly, and an element is rejected only if its mapping is singular.", "quantifier": "every material, every position of the nodes, every number of nodes and Gauss points, every displacement", "why_tests_cant": "The statements are about all displacements and all distorted elements; tests compute a few.", "anchors": ["fem3d/fem3d.cpp: element::buildKe, inv_mul_gauss, pointstiffness, pointstress, matrix_element"]}
{"id": "C87", "title": "Integration over a finite element", "statement": "The points and weights used in each direction of an element integrate every polynomial of the degree its functions need, on either side of a kink; the points lie strictly inside the element and the weights are positive.", "quantifier": "every shape, every polynomial of the degree", "why_tests_cant": "A test integrates a few polynomials.", "anchors": ["fem3d/fem3d.cpp: gp_2, gp_3, gp_4, gp_A, gl_4, element::getgauss"]}
{"id": "C88", "title": "The sparse stiffness matrix", "statement": "Whatever blocks are added, in whatever order and on whichever side of the diagonal, the sparse matrix of the finite element solver reads as the symmetric matrix they were added to. Copying, tidying and filling in keep every entry; fill in adds blocks exactly where the elimination of one row makes one non-zero; products and residuals are those of the full matrix.", "quantifier": "all sequences of added blocks over any field, all sizes, all vectors", "why_tests_cant": "The matrix is an array of nodes threaded by pointers and depends on the order in which the elements add their blocks; tests see a handful of meshes.", "anchors": ["fem3d/fem3d.cpp: smatrix::append, smatrix::tidy, smatrix::fillin, smatrix::smatrix(const smatrix &), smatrix::chol, smatrix::nonzero, mesh::solve"]}
{"id": "C89", "title": "The preconditioner of the finite element solver", "statement": "The incomplete decomposition gives a triangular matrix with a positive diagonal, with blocks only where the filled in matrix has them, and there the product of its transpose and itself is the matrix; if elimination makes no further blocks non-zero it is the complete decomposition. Forward and backward substitution solve its system exactly for every right hand side.", "quantifier": "all sequences of added blocks, all sizes, all right hand sides, exact arithmetic with a square root", "why_tests_cant": "The decomposition merges two threaded columns for each block in place; tests see a few meshes.", "anchors": ["fem3d/fem3d.cpp: smatrix::incchol, smatrix::fillin, mesh::solve"]}
{"id": "C90", "title": "Solving the finite element system", "statement": "For every mesh whose energy is positive for each displacement that vanishes where something is prescribed, with any prescribed displacements and forces, any order of the nodes, any start and a load that is not zero, solve either stops because the preconditioner breaks down or gives exactly the prescribed displacements and, elsewhere, forces whose squared imbalance is less than the tolerance times the squared load; if an element has no stiffness matrix nothing is solved; a mesh at rest stays at rest.", "quantifier": "all meshes (elements with any number of nodes, their matrices), prescribed values, node orders, starting displacements and tolerances", "why_tests_cant": "Whether the conjugate gradients end within the number of steps and keep the boundary conditions depends on the whole system; tests solve single meshes.", "anchors": ["fem3d/fem3d.cpp: mesh::solve", "fem3d/fem3d.cpp: svector", "fem3d/fem3d.cpp: mesh_bc"]}
{"id": "C91", "title": "Gram-Schmidt", "statement": "For every square matrix, orth_gs makes the columns orthonormal up to the first column that depends on the ones before it; the columns after stay orthogonal to them, every new column is a positive multiple of the old one plus a combination of the columns before, and nothing outside the matrix changes. Independent columns all become orthonormal, and orthonormal columns do not change.", "quantifier": "all sizes, all matrices and all contents of the memory around them", "why_tests_cant": "The invariant that all pairs of columns stay orthogonal ranges over all matrices and sizes; tests orthonormalise single matrices.", "anchors": ["src/linalg.cpp: orth_gs"]}
{"id": "C92", "title": "Eigenvalues of symmetric matrices", "statement": "The tridiagonal reduction gives orthonormal columns that turn a symmetric matrix into the tridiagonal one. Whenever the eigenvalue routine returns, its columns are orthonormal and turn the matrix into the diagonal one of its eigenvalues up to a bound in terms of what the convergence test takes for zero, with the eigenvalues in descending order when asked for. Solving and inverting through it leave a residual bounded by the same quantity (its square for the refined solution) for matrices far enough from singular, the substitution handles any column of several right-hand sides, and no memory outside the arrays is touched.", "quantifier": "every size, every symmetric matrix, every right-hand side, every convergence test that accepts zero and bounds what it accepts, every number of passes", "why_tests_cant": "The invariant of the rotations ranges over all sizes, matrices and numbers of passes; tests decompose single matrices.", "anchors": ["src/linalg.cpp: tridiag_hh, eig_tri_ql, eig_ql, bksub_eig, equ_eig, inv_eig"]}
{"id": "C93", "title": "QR decomposition and the solution of equations by it", "statement": "The QR decomposition of a square matrix leaves reflections that keep scalar products and turn every column of the matrix into that of a triangular matrix, and it returns true exactly for matrices that are not singular. Substituting a right-hand side afterwards gives the solution of the equations in the column asked for, and touches nothing else.", "quantifier": "every size, every square matrix, every right-hand side and column, every content of the work arrays", "why_tests_cant": "The invariant of the reflections ranges over all matrices and sizes, and the contents of memory that was never set cannot be enumerated.", "anchors": ["src/linalg.cpp: decmp_qr, bksub_qr"]}
{"id": "C94", "title": "Singular values and least squares by them", "statement": "The singular value decomposition works inside its arrays, sets all of its results and gives factors with orthonormal columns and singular values that are not negative, whose product is the matrix; and so do the routines for equations, inverses and orthonormalisation built on it. Substitution with the factors of a matrix gives the least squares solution of least length in the column asked for and changes nothing else.", "quantifier": "every number of rows and columns, every matrix and right-hand side", "why_tests_cant": "Least squares optimality ranges over all vectors; reads outside an array usually go unnoticed in tests.", "anchors": ["src/linalg.cpp: decmp_svd, bksub_svd, equ_svd, inv_svd, orth_svd"]}
{"id": "C95", "title": "The simplex step of the back-calculation keeps the best moduli it sees", "statement": "The Downhill Simplex step of the back-calculation returns moduli whose deflection error is not above the error of the moduli it was given, nor above that of any moduli it tried; each logarithm lies between one and nine; the value returned is the distance moved; the step ends.", "quantifier": "every number of layers, starting moduli, tolerance and error function of the moduli (including errors that are not a number)", "why_tests_cant": "the corners move with the error function, so that a bad exchange shows only for particular shapes of the error; termination is about all histories", "anchors": ["src/pavement.cpp: LEbackcalc::dsm", "src/pavement.h: LEbackcalc"]}
{"id": "C96", "title": "The gradient step of the back-calculation moves towards the measured deflections", "statement": "The Deflection Gradient step does not increase the sum of the squared distances from the moduli to the planes on which the linearised deflections are as measured. If that sum has a minimum within one order of magnitude, the step leads to a minimum, up to the precision. The value returned is the length of the step, at most one order of magnitude. The new logarithms are the old ones plus the step, brought between one and nine. The matrix of directions stays orthonormal, so that the next gradients see all layers.", "quantifier": "every number of layers and deflections, gradients, calculated and measured deflections and precision, in exact arithmetic", "why_tests_cant": "the conjugacy of the directions, on which the end of the loop rests, is a property of all previous rounds", "anchors": ["src/pavement.cpp: LEbackcalc::deflgrad", "src/matrix.h: orth_gs"]}
{"id": "C97", "title": "Boussinesq's stresses and displacements are those of a loaded half-space", "statement": "The stresses and displacements of a half-space under a circular load obey Hooke's law and equilibrium, leave the surface outside the load free of stress, carry the load through every horizontal plane, and on the axis are those of the load spread over its circle. They change continuously from the axis outwards.", "quantifier": "all depths, distances, radii, moduli and Poisson's ratios, in exact arithmetic", "why_tests_cant": "the laws are differential equations and integrals over the whole half-space; a test compares values at points, where the formulae on and off the axis cannot be told apart from a mistake", "anchors": ["src/pavement.cpp: boussinesq_vse, boussinesq_rse, boussinesq_tse, boussinesq_sse, boussinesq_rdp, boussinesq_vdp"]}
{"id": "C98", "title": "Odemark's method transforms layers to half-spaces of equal stiffness", "statement": "The approximate methods replace the layers above a point by as much of its material as has the same bending stiffness, take the stresses at the transformed depth from the half-space, and add the shortening of all layers below to the deflection. The deflection is continuous at interfaces; a single layer gives the half-space, and so do several layers of the same material.", "quantifier": "every number of layers with any thicknesses, moduli and Poisson's ratios, every point, layer, load radius and distance, in exact arithmetic", "why_tests_cant": "the results accumulate over all layers; continuity and the invariance under splitting a layer relate results of different pavements", "anchors": ["src/pavement.cpp: LEsystem::calc_odemark, LEsystem::calc_fastnum"]}
{"id": "C99", "title": "The adaptive integration of the half-space gives the circular load", "statement": "The stress and the deflection under a circular load are calculated by adaptive integration around the circle. The integrand at each angle is what point loads along a ray of the circle cause; the recursion ends and leaves no trace for the next call; the result is the mean over the angles within the tolerance.", "quantifier": "all depths, distances, radii and Poisson's ratios, every history of calls, in exact arithmetic", "why_tests_cant": "the recursion keeps its state in static variables across calls, and the error of an adaptive rule depends on the integrand everywhere", "anchors": ["src/pavement.cpp: quad8_vdp, quad8_vse"]}
{"id": "C100", "title": "The integration tables integrate polynomials exactly", "statement": "The table of points and weights built for the integrals of the layered system is the Gauss-Legendre rule for every number of points: the points are the zeros of the Legendre polynomial, increasing and inside the interval; the weights are positive; polynomials of degree below twice the number of points are integrated exactly.", "quantifier": "every number of points and every polynomial", "why_tests_cant": "exactness is a statement about all polynomials, and that the zeros exist for every number of points is a theorem", "anchors": ["src/pavement.cpp: initarrays"]}
{"id": "C101", "title": "A back-calculation that reports success has found moduli that no longer move", "statement": "The back-calculation ends after a bounded number of steps. If it reports success, the moduli it sets are where a step of at most the tolerance ended. All moduli it sets are between 10 and 10^9. Moduli that explain the deflections are kept, and moduli close to them are improved. The starting values for a uniform pavement are its modulus. The error is zero only if all deflections are as measured.", "quantifier": "every number of layers and deflections, every relation between moduli and deflections, all settings and starting moduli, in exact arithmetic", "why_tests_cant": "the outcome depends on the order of four kinds of steps over the whole run, and success is a statement about the last of them", "anchors": ["src/pavement.cpp: LEbackcalc::backcalc, LEbackcalc::seed, LEbackcalc::bowlerror"]}
{"id": "C102", "title": "The normal distribution function and its inverse are accurate everywhere", "statement": "stdnormal_cdf returns the integral of the normal density, with a relative error below 1e-15 even far out in either tail; it is strictly between 0 and 1, strictly increasing across the joins of its formulae, and symmetric. stdnormal_inv undoes it for every probability a double can hold, symmetrically, and answers infinities at 0 and 1 and not-a-number outside. stdnormal_pdf is the derivative of the distribution function.", "quantifier": "all real numbers, all probabilities from the smallest positive double up to its complement, and all special values", "why_tests_cant": "Tests compare a few tabulated values; the error of an approximation between them, or far in the tail, and monotonicity at the joins need a bound for every argument.", "anchors": ["src/statistics.cpp: stdnormal_pdf, stdnormal_cdf, stdnormal_inv", "include/mathplus.h: M_SQRT2PI, M_1_SQRT2PI"]}
{"id": "C103", "title": "The generator of normal numbers returns both halves of each pair, with mean zero and no correlation", "statement": "Successive calls of stdnormal_rnd return the sine and then the cosine part of one pair made from two numbers of std::rand, so that n calls use n numbers rounded up to even. All values are finite and bounded by the square root of twice the logarithm of RAND_MAX+1. If all pairs of numbers are equally likely, the two values have mean zero, the same variance and no correlation.", "quantifier": "all sequences of std::rand, all numbers of calls, all RAND_MAX of at least 2", "why_tests_cant": "A test draws a sample; moments over all outcomes and the use of the static state over any number of calls are not visible in a sample.", "anchors": ["src/statistics.cpp: stdnormal_rnd"]}
{"id": "C104", "title": "Each random variable has the distribution it was made for", "statement": "A normal, lognormal, uniform or discrete random variable reports the mean and standard deviation of the values it takes: scale_stdnormal of a standard normal number has that mean and that variance. Lognormal values are positive, uniform values stay strictly between the bounds, discrete values are whole numbers between them. Parameters that make no sense are refused or give not-a-number. A variable that says it is not randomizable always has its mean as value.", "quantifier": "all finite parameters, all standard normal numbers, expectations over the normal distribution", "why_tests_cant": "Expectations and ranges over all values of a continuous variable cannot be computed by running examples.", "anchors": ["include/randomvar.h: rv_normal, rv_lognormal, rv_uniform, rv_dirac, rv_discrete", "src/statistics.cpp: random::make_rv"]}
{"id": "C105", "title": "The call for CalME writes each result to its own place", "statement": "OP_LE_Calc_CalME calculates the same as OP_LE_Calc for moduli and pressures given in MPa, and writes nine results of each point, with signs and units changed, to rows of 150 numbers: row and place tell the kind of result and the point. No result overwrites another and nothing else is written.", "quantifier": "all layers, loads and points, all flags, any contents of the array before", "why_tests_cant": "Which places are written depends on the number of points; an overlap shows only beyond a certain number.", "anchors": ["libop/libop.cpp: OP_LE_Calc_CalME"]}
{"id": "C106", "title": "A place in a mesh has one node, and nodes are found and listed in order", "statement": "However often a place is asked for, it has one node; nodes are numbered in the order in which they first came. A place is found if and only if it has a node. Sorted access lists the nodes from the top down, then by x, then by y, and the order of a node is its place in that list. A neighbour once noted stays, and a contradiction is an error. Nothing is read or written outside the storage, and a search among n nodes takes at most 3 log2(n+1) comparisons.", "quantifier": "all sequences of added places and noted neighbours, of any length", "why_tests_cant": "Whether the tree keeps its order, its counts and its balance depends on the whole sequence of rotations.", "anchors": ["fem3d/fem3d.cpp: coord3d::compare, node3d::setneighbours, node_list, mesh::addnode, mesh::updatenode, mesh::hasnode, mesh::getorderednode, mesh::getorderofnode"]}
{"id": "C107", "title": "Displacements and forces of a mesh are those that were given", "statement": "A displacement is prescribed at exactly the nodes and directions that were named, singly or by a plane, with the value given last. Forces on the same node and direction add up. A call that names a place without a node says so and changes nothing. The solver gets every prescribed value once, for a node that exists, and an ordering of the nodes that is a permutation.", "quantifier": "all sequences of added nodes, displacements, planes and forces, of any length", "why_tests_cant": "Whether an entry is lost, doubled or moved depends on the whole sequence of insertions into the nodes and the tables.", "anchors": ["fem3d/fem3d.cpp: mesh::add_bc, mesh::add_bc_plane, mesh::add_fext, mesh_bc_key, mesh_bc, mesh::solve"]}
{"id": "C108", "title": "The elements of a mesh share the nodes where they meet", "statement": "The corners of an element may be given in any of the eight mirrored orders, and a degenerate element is an error. The nodes of an element divide its sides evenly, to the nearest unit of the coordinates, and elements that share the corners of a face share the nodes there. The nodes of the mesh are those of its elements, and neighbours are noted exactly as the elements say. Elements that do not fit are refused; boxes between the lines of a grid always fit, if the lines are far enough apart for the nodes. An infinite element reaches from its line or rectangle to the double distance.", "quantifier": "all sequences of block, quadratic and infinite elements, of any length and with any corners", "why_tests_cant": "Two elements meet in the right nodes only if the same places come out of different corners, whatever was added in between.", "anchors": ["fem3d/fem3d.cpp: mesh::add, element_base::setup_block, element_base::coord_sort, element_base::coord_add, element_base::coord_neighbours, element_block, element_quad, element_infinite"]}
{"id": "C109", "title": "A variable element takes up the nodes on its sides", "statement": "A variable or adaptor element gets its corners and the nodes that finer elements have put on its sides and on its top and bottom, each once and in the place where its shape functions expect it; these are exactly the nodes noted next to its corners. What was noted before stays. An element that finds no such node is the ordinary block. An element that contradicts what is known above or below its corners is refused.", "quantifier": "all meshes, all variable and adaptor elements with distinct corners", "why_tests_cant": "Which nodes are found depends on all elements added before and on the order in which they were added.", "anchors": ["fem3d/fem3d.cpp: element_base::setup_mask, element_variable, element_adaptor, mesh::add"]}
{"id": "C110", "title": "The load on a block is its area below the tire", "statement": "For every rectangle and every round load at the origin, the area used to turn the pressure into a force is the area of the part of the rectangle inside the circle; and the areas of rectangles that tile the circle add up to pi times the radius squared.", "quantifier": "all rectangles, in either order of their sides, all radii, all grids of lines in both directions", "why_tests_cant": "A few printed sums cannot show that the cases of the formula (corners in and out, either side of the axes) fit together for every position of the grid.", "anchors": ["fem3d/fem3d.cpp: circlearea", "fem3d/fem3d.cpp: blockarea"]}
{"id": "C111", "title": "Regions of a mesh overlap, merge and coarsen as areas", "statement": "A block overlaps a region exactly if a point is inside both; merging a list of regions keeps all stops and invents none, leaves the ends of the list unchanged, and afterwards no two regions overlap or share a whole side; removing every second stop keeps the ends of a region.", "quantifier": "all lists of regions, all stops", "why_tests_cant": "Whether regions stay apart depends on the order and on how far the earlier ones have grown, so that lists of any length have to be considered.", "anchors": ["fem3d/fem3d.cpp: region", "fem3d/fem3d.cpp: region_list", "fem3d/fem3d.cpp: region_list::merge"]}
{"id": "C112", "title": "Random fields over the surface have the correlation asked for", "statement": "The correlation asked for between two nodes is one at no distance and the same from either node, and its range in a direction is that of an ellipse; the Bessel functions of higher order obey their recurrence and the gamma function is the factorial. Made from standard normal numbers that are not correlated, the variations have mean zero, and the covariance of the variation of one interface at one node with that of another interface at another node is the sum, over the interfaces down to the upper of the two, of the variance times the correlation asked for (times 0.999 between different nodes).", "quantifier": "every order, every distance and angle, every number of nodes and layers, and every lower triangular decomposition of the matrix of correlations", "why_tests_cant": "Tests see single draws from a generator; the correlation is a statement about all pairs of nodes and about the distribution.", "anchors": ["fem3d/fem3d.cpp: bessk, matern, whittle, rho0, rho1, rho2, main"]}
{"id": "C113", "title": "Nodes below a varying surface move with their layers", "statement": "A node of a layer is moved so that it divides the moved layer as it divided the layer; an interface is moved alike by the layers above and below; where nothing varies no node moves; nodes stay in order exactly where the moved layer has some thickness left; and the nodes of an infinite element that reach to infinity are at the height of the nodes they start from.", "quantifier": "every stack of layers, every variation at every node, every height, every group of nodes and every combination of infinite sides", "why_tests_cant": "The variations are random and differ at every node, and elements meet at the interfaces of layers; a test sees a few columns.", "anchors": ["fem3d/fem3d.cpp: node_depth_callback, node_emod_callback, element::buildxe"]}
{"id": "C114", "title": "A set accepts its own elements, and itself, as arguments", "statement": "Adding an element of a set to the same set, at the end or at a place, adds a copy of that element; adding a set to itself adds a copy of the set; assigning a set to itself changes nothing.", "quantifier": "all sets reached by any history of calls, all elements and places", "why_tests_cant": "Whether the argument survives depends on the buffer, which depends on the history of the set; most calls work by chance, since only every so many additions move the buffer.", "anchors": ["include/set.h: sset::add", "include/set.h: fset::operator=", "include/set.h: fset::allocate"]}
{"id": "C115", "title": "The stops in depth follow the layers", "statement": "For every pavement and load the depths at which elements begin and end increase from the surface to the bottom, every interface of the layers is one of them, so that every element lies in one layer, and the levels of refinement do not decrease with depth and rise by one at a time; the thin elements added at the interfaces keep this.", "quantifier": "all numbers of layers, thicknesses, moduli and radii of loads", "why_tests_cant": "The stops are made for an equivalent thickness and then stretched layer by layer, each stretch moving all the stops below; whether a stop stays on its interface and none passes another depends on all thicknesses together.", "anchors": ["fem3d/fem3d.cpp: main (lines 3484-3576)"]}
{"id": "C116", "title": "The integrals stop at a zero of what is left out", "statement": "For every load and every distance the two integrals of a layered system stop at the zero of the expansion of the part left out that follows the estimate, between two neighbouring tabulated roots, or at the last tabulated root; below the centre and below the edge of the load, and close to the centre, at the last root; the search for the zero ends, and no entry past the end of the tables is used.", "quantifier": "all radii and distances, all tables of increasing roots and their lengths, all continuous functions searched", "why_tests_cant": "The search replaces one end of the interval at a time and only stops when the value is small; whether it can run for ever or leave the interval depends on the function and the signs at both ends.", "anchors": ["src/pavement.cpp: refine_m0, refine_m1, stoppingpoints"]}
{"id": "C117", "title": "The intervals of integration cut the range up to the stopping point", "statement": "For every point and load the intervals over which the layered system is integrated follow one another without gap or overlap from zero to the stopping point, every root of the two factors of the integrand before that is an end of an interval, no interval is cut by the stopping point of any distance, and the intervals are the same in every unit of length.", "quantifier": "all radii, distances, depths, stopping points and tables of roots", "why_tests_cant": "Intervals are added for great depths and distances between others that depend on all radii at once; whether one is out of place depends on the whole set.", "anchors": ["src/pavement.cpp: LEsystem::calc_accurate, LEsystem::calculate"]}
{"id": "C118", "title": "Simple variants, realizations and fixations hold values of their own", "statement": "A simple variant keeps the type it was made with, rejects values and variants of other types without effect, and gives back the value last stored, converted; no call changes another variant, and copies are independent. Realizing or fixating a variant functor gives a variable of the realized or plain type that holds the value the functor stood for at the time, whatever it was chained to and whatever happens later.", "quantifier": "all lists of types, relations between them, values, and histories of calls", "why_tests_cant": "Which slot a call is for is decided by a recursion through the types at compile time and an index at run time; the cases are all combinations of types, and two recursions run side by side in a realization.", "anchors": ["include/variant.h: variant, vunctor::realize, vunctor::fixate, real_type, wrap_type"]}
{"id": "C119", "title": "Validators ask their function about values of their type only", "statement": "A validator says of a value, or of the value a variant functor of the same types stands for, what its function says; values and variables of other types are rejected without effect; assignment takes the function of another validator of the same type, and copies ask the same function.", "quantifier": "all lists of types and relations between them, functions, values, and histories of calls", "why_tests_cant": "The slot is found by a recursion at compile time in one direction of the relation and by another in the other direction; whether they meet depends on the order of the types.", "anchors": ["include/variant.h: validator"]}
{"id": "C120", "title": "The elements of a mesh fill the space under the loads once, up to the edge", "statement": "The mesh program builds: every point up to the edge to every side and from the surface down to the last stop is in exactly one element of the layer it belongs to, no other point is in any element, and every part of the four sides and every depth of the four corners has exactly one infinite element.", "quantifier": "all stops in depth, levels and layers; for the regions, all runs of the loop that end", "why_tests_cant": "Elements are added in rounds over regions that grow, are thinned out and are merged; whether a place is filled twice or not at all depends on the whole history of the regions and on the levels of the stops. One run checks one pavement.", "anchors": ["fem3d/fem3d.cpp: main (loop that adds the elements), region, region_list"]}
{"id": "C121", "title": "The dirty procedure integrates an interpolant of the response", "statement": "The fastest procedure calculates the response of the layers only at the ends of the intervals of integration. Beyond the first intervals its results are those of the fast procedure for the response replaced by the straight lines between the responses at the ends of each interval; nothing left over from an earlier depth, radius or gradient is used; and for every bonded pavement the error of the response is at most a constant times the square of the length of the interval.", "quantifier": "all pavements, depths, distances, rules of integration and divisions into intervals", "why_tests_cant": "Rows of a table are handed on from interval to interval while the first intervals do not use them; whether the row used is that of the right wave number depends on the whole sequence of intervals, and the error on all moduli and thicknesses.", "anchors": ["src/pavement.cpp: LEsystem::calculate"]}
{"id": "C122", "title": "The name of a type is exact, and types compare as their names do", "statement": "type_id gives the name of the type as the compiler writes it, for each of the three compilers; two types compare equal exactly when their names are the same; type_index is ordered by a strict total order that agrees with equality; and before() orders the names lexicographically and agrees with equality.", "quantifier": "all names of types", "why_tests_cant": "Types are compared by a 64-bit hash of their names; whether two names ever have the same hash is a statement about all names, and random ones never show it.", "anchors": ["include/ctti.h: type_info, type_index, type_deducer, type_id", "include/conststr.h: conststr::operator(), fnv1a_hash"]}
{"id": "C123", "title": "An array given to an owner is deleted exactly once", "statement": "Whatever a program does with autodelete objects - making, moving to new ones, assigning by move, destroying in any order - no array is deleted twice, no owner holds a deleted array, and once no owner is left every array has been deleted.", "quantifier": "all histories of operations on any number of owners", "why_tests_cant": "The defect needs a particular sequence of moves and is a leak, which a test that looks at values cannot see.", "anchors": ["include/autodelete.h: autodelete"]}
{"id": "C124", "title": "The date of a survey file is that of its first vehicle", "statement": "The date by which survey files are put in order is the day under which the first vehicle of the file is counted, and -1 if the file cannot be opened or no vehicle in it is counted.", "quantifier": "all file contents", "why_tests_cant": "Files may contain any bytes, and the case that fails depends on how the last line ends.", "anchors": ["src/traffic.cpp: WIMday::GetRSADate, WIMsurvey::ProcessRSAFile"]}
{"id": "C125", "title": "Inside a layer the calculated stresses and displacements are an elastic state in equilibrium", "statement": "Take the stresses and displacements calculated for a group of loads as functions of the place in one layer. They belong together: the strains that follow from the stresses by Hooke's law with the modulus and Poisson's ratio of the layer are the symmetric part of the derivatives of the displacements, and the stresses are in equilibrium (their divergence is zero).", "quantifier": "All pavements, layers, numbers and positions of loads, load radii and places away from the axes of the loads, and all sets of integration points and stopping points", "why_tests_cant": "A statement on derivatives of the results at every place; differences of calculated values only show it up to rounding, and only where they are taken.", "anchors": ["src/pavement.cpp:LEsystem::calc_accurate", "src/pavement.cpp:LEsystem::calculate", "src/pavement.cpp:buildT", "src/pavement.cpp:addtodata", "src/pavement.cpp:stoppingpoints"]}
{"id": "C126", "title": "The 27 numbers returned for a point are all results of the point, each once, and belong together", "statement": "The numbers a calculation returns for a point are its stresses, principal stresses, displacements, strains and principal strains, each at its documented place, each exactly once and none left out. Asking for one result by its kind and direction gives the number at its place. The strains among them follow from the stresses among them by Hooke's law, the principal values are ordered, and the principal strains follow from the principal stresses.", "quantifier": "All contents of the results of a point and all states of stress, moduli and Poisson's ratios", "why_tests_cant": "A test compares numbers of a few pavements; equal entries hide a transposed place, and the relations hold for every state of stress only by proof.", "anchors": ["src/pavement.h:pavedata::result", "libop/libop.cpp:copy_res", "src/pavement.cpp:pavedata::principle"]}
{"id": "C127", "title": "Totals of a traffic day", "statement": "For every count of a day, the total of vehicles is the sum over the lanes of the light and heavy ones, the axle counts by lane and by type have the same sum, and the totals of a sum of days are the sums of the totals. A record of a vehicle either changes nothing or adds exactly one vehicle, to the short ones or to the total; a heavy vehicle adds all of its axles to the counts, each once (a tandem stands for two and a tridem for three), and other vehicles add none. So over a file of any length the number of vehicles is the number of records accepted.", "quantifier": "every day, every sum of days, every record and every list of records", "why_tests_cant": "a file may have any number of records with any contents, and the totals are kept in separate arrays that have to agree", "anchors": ["src/traffic.h: TV, TLV, THV, VPL, TAC, AxC, AC", "src/traffic.cpp: AddRSAVehicle, operator +="]}
{"id": "C128", "title": "Moving a pavement", "statement": "After any history of pavements that are created, moved from one to another and destroyed, with layers added, removed and changed in between, every pavement has exactly the layers it should, in the same order in both directions; every layer reports to the pavement it is in, so that a change of it marks the results of that pavement and of no other; and a pavement whose layers were moved away has neither layers nor results.", "quantifier": "every history of creations, moves, destructions, calculations and changes of layers, of any length and with any number of pavements and layers", "why_tests_cant": "which pavement a layer reports to depends on the whole history; a wrong owner shows as a stale result only much later", "anchors": ["include/list.h: list_double, list_owned, listelement_o::owner", "src/pavement.h: LEsystem(LEsystem &&), LEsystem_cache(LEsystem_cache &&)", "src/pavement.cpp: LElayer::thickness, emod, poissons, slip"]}
{"id": "C129", "title": "The modified Bessel functions and the correlations made of them", "statement": "For every argument the modified Bessel functions of the mesh program are those of the literature within the accuracy of their tables: the functions of the first kind agree with their power series, all four satisfy the relation between them (the Wronskian is the inverse of the argument), and the correlations of Whittle and Matern computed from them lie between 0 and 1 at every distance.", "quantifier": "every real argument, distance and range", "why_tests_cant": "the functions are tabulated polynomials with three ranges; a wrong digit shifts values in the seventh place, and a correlation above one shows only as a decomposition that fails", "anchors": ["fem3d/fem3d.cpp: bessi0, bessi1, bessk0, bessk1, bessk, fn_matern, fn_whittle"]}
{"id": "C130", "title": "A load is given by two of its three numbers", "statement": "A load made from two of force, pressure and radius has exactly those two and the third that goes with them (the force is the pressure on the area of the circle); a pressure given besides force and radius is not used; a load cannot be made exactly when no load has the numbers; making a load again from its own numbers gives the same load.", "quantifier": "every position and every force, pressure and radius", "why_tests_cant": "the numbers are continuous and any of the three may be left out or zero", "anchors": ["src/pavement.h: paveload, LEsystem::addload", "libop/libop.cpp: OP_LE_AddLoad"]}
{"id": "C131", "title": "A batch of simulated pavements leaves a pair of results for every run", "statement": "Whichever of the solutions fail, the program writes results only for the runs it was asked for; whenever it is stopped, every run but the last begun has its results with variations followed by its only results without; when it ends, all runs have. It ends if the solutions that are left do not fail. Results of different sets, kinds and runs have different files, and each file has 32 numbers for each point of each element in order.", "quantifier": "every first number and count of runs, every history of failed solutions, every point at which the program is stopped, all sets of elements and results", "why_tests_cant": "failures of the solver come in any order, and the program may be stopped anywhere", "anchors": ["fem3d/fem3d.cpp: main, results"]}
{"id": "C132", "title": "Saved correlations are complete and belong to the mesh", "statement": "The factors of the correlations are calculated once and saved. However often the program is started, stopped in between, or ended by a matrix that cannot be decomposed, each layer later reads its own factor, for the mesh it is used with.", "quantifier": "every number of layers and all factors, every set of files at the start, every history of starts and every point at which one is stopped", "why_tests_cant": "the crash points and the histories of starts have no bound", "anchors": ["fem3d/fem3d.cpp: main", "src/linalg.cpp: decmp_chol_tri"]}
{"id": "C133", "title": "A line search never makes the fit worse, and ends at a minimum", "statement": "Searching along a direction from given moduli ends, moves them along that direction only by the length it returns, gives an error not larger than at the start or at any place looked at in the second part, and the place returned is bracketed within the tolerance by two places of no smaller error. The conjugate gradients that use it never end with a larger error than they began with.", "quantifier": "every error function, start, direction, tolerance and number of rounds", "why_tests_cant": "the error is an unknown function of the moduli, and the search depends on it at every step", "anchors": ["src/pavement.cpp: LEbackcalc::brent, LEbackcalc::conjgrad"]}
{"id": "C134", "title": "The particle swarm returns the best moduli it has tried", "statement": "From every start the swarm ends without dividing by zero, tries only moduli within the limits, and returns the best of all it has tried, which are not worse than the moduli it was given.", "quantifier": "every error function, start, number of particles and layers, and all random numbers", "why_tests_cant": "the particles move by the errors of all the others and by random numbers", "anchors": ["src/pavement.cpp: LEbackcalc::swarm"]}
{"id": "C135", "title": "The fits of the root search are exact for their curves", "statement": "Each way in which the root search guesses the next point finds the root exactly for the curves it is made of: inverse interpolation for a place that is a parabola in the value, Muller's method for parabolas, Ridder's method for a line times an exponential.", "quantifier": "every curve of each kind and every three of its points that the fit applies to", "why_tests_cant": "Unit tests try single functions, on which a wrong guess is hidden by the bisection that follows it.", "anchors": ["src/numerics.cpp: fzero_core"]}
