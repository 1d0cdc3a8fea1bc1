# Formal model of openpave/src in Lean 4

## What is here

* `properties.jsonl`: the semantic properties, C01 to C135.
* `lean/Verif/<Area>/<Name>.lean`: models of the C++ code, each definition citing file and lines; helper lemmas
  are in the same file or in `*Lemmas.lean` and similar.
* `lean/Verif/<Area>/Props*.lean`: the property theorems, the small specifications they are stated with, and a
  non-vacuity `example` beside each theorem with hypotheses.
* `MANIFEST.json`: from properties to theorems. `seeded/LOG.jsonl`: experiments with wrong programs.

A theorem name starts with the property's id.  A name ending in `_partial` proves less than the property; the other
theorems of a property marked partial state what is missing, usually as a proved counterexample.

## Modelling conventions

* Code is read as text; nothing is compiled or run. A C++ function that mutates through `this` becomes a Lean function
  returning the new state.
* Undefined behaviour (access out of bounds, use of an unconstructed or destroyed object, null dereference, unbounded
  recursion or loop by fuel) and thrown exceptions are distinct outcomes: `Res` in `Verif/Basic.lean` has `ok`, `throw`
  and `ub`. A theorem that a run is `ok` is a memory-safety statement for the modelled accesses.
* Raw storage is modelled cell by cell (`Buf`): a cell is unconstructed or holds a value.
* `unsigned` is `Nat`, with wrap-around made explicit where a property or a bug depends on it (C01, C02, C33, C34, C39,
  C53); elsewhere sizes are taken to be below 2^32.
* `double` is an exact ordered field, ℚ or ℝ. Rounding is not modelled, except where a theorem takes an arbitrary
  rounding function (C52, C56) or where a specific rounding effect is the property (C31). NaN is `none` where it can
  arise (C57, C70).
* Loops are structural recursion, or recursion with fuel and a theorem that the fuel suffices.
* Allocation is taken to succeed unless the property is about it.
* Where the code has a compile-time choice (merged elements in trees, plain or class types in tables), the model takes it
  as a parameter, and the theorem says for which choice it holds.

## Trusted base

The Lean 4 kernel; the axioms `propext`, `Classical.choice` and `Quot.sound`, which are the only ones any theorem
listed in MANIFEST.json depends on (`#print axioms`); the definitions of Mathlib used in statements (ordered
fields, reals, matrices, integrals, finite sums); and the reading of the C++ text into the model. No
other axioms, no `sorry`, no `native_decide`, no `bv_decide`. `decide +kernel` is used for concrete witnesses,
non-vacuity examples, and the signs of integer polynomials in Stat/CdfCert, Stat/InvCert and Pave/PropsGaussAll, where a theorem
(Stat/Cert) turns the check of finitely many shifted coefficients into a statement about every real number.

The compiler, the C++ standard library, the operating system (threads, mutexes, files, `mktime`, memory) and floating
point hardware are outside the model. Threads are modelled as interleavings of steps that are atomic under the lock the
code takes.

## What is modelled, by file

| File | Modelled | Not modelled |
|------|----------|--------------|
| include/set.h | all set classes: buffers, insertion, removal, sorting, searching, compaction, keyed, indexed and associative sets | move operations of the base class, which the sets do not use |
| include/tree.h | BST, ktree_avl, ktree_llrb insertion and lookup | the private ktree_llrb remove, which cannot be instantiated; copy assignment, which lacks a return |
| include/table.h, axis.h | addressing, insertion, removal, dependent axes, tables listening to axes | printing |
| include/list.h | list_single, list_owned, list_double where it compiles | list_double::remove and pop, which name members that do not exist; moves between owners |
| include/listen.h, event.h | dispatchers, listeners, progress | message text |
| include/task.h | queue, workers, drain, abort, single-threaded mode | allocation failure inside the queue |
| include/cache.h (slabs) | allocation, reset, replay | alignment of the system allocator |
| include/fixed.h, conststr.h, mathplus.h | fixed point, constant strings, choose | other constants |
| include/ctti.h, autodelete.h | all | deduction and decay of the argument of type_id |
| include/meta.h | none (traits of types only) | all |
| include/rng.h | state, regeneration, outputs | initial entropy |
| include/fft.h | complex and real transforms, convolution | the truncated sine series is replaced by the sine |
| include/matrix.h | dense matrices, shared storage, zero, unit and operator matrices, the matrix class | flags (nothing sets scalar); wrap-around of sizes |
| include/tmatrix.h | matrices of fixed size, expressions, assignment in the metaprogram build | printing; the loop build; expr / d, which does not compile |
| include/randomvar.h | house, randomvar, realization, realized, order of a roll, counts and lifetimes; the distributions | threads; comparisons returned to the caller |
| src/statistics.cpp | all: density, distribution function, inverse, generator, make_rv | rounding; threads |
| include/variant.h | vunctor: construction, copy, move, assignment, functions, chain, get, marks; pointers as stored types; simple variants, validators, realize, fixate | functions that throw or call back |
| src/linalg.cpp | Gauss, LU, Cholesky (full, triangular, band), LDL', packing, transposition, Gram-Schmidt, eigenvalues, QR, singular values and their substitution | rounding; convergence of the iterations beyond two rows or columns |
| src/pavement.cpp, src/pavement.h | points, layers, loads, the state machine of results, check, coefficients of layers, slip, superposition, principal stresses, gradients, integration stopping, back-calculation steps (Kalman, Gauss-Newton, simplex, gradient), driver of the back-calculation, half-space formulae, Odemark, adaptive integration, Gauss points, stopping points and intervals of the Bessel integrals, interpolation of the dirty mode, line search, particle swarm | the values of the Bessel functions of the C library |
| src/numerics.cpp, include/numerics.h | fzero_core, fzero, fmin_brent over an arbitrary function | rounding; nothing else is in the file |
| src/thermal.cpp, src/thermal.h | all | |
| src/traffic.cpp | records, fields, counts, surveys, dates, files | directory listing (its POSIX version does not compile) |
| libop/libop.cpp | handles, layered elastic calls, single-call calculation, the call for CalME, heat flow handles | |
| fem3d/fem3d.cpp | principal stresses, shape functions, stiffness and Gauss points of the elements, sparse matrix, incomplete decomposition, solver, nodes, boundary conditions and forces of a mesh, block, infinite and variable elements, areas below a load, regions, random fields, depths below a varying surface, depth stops, the loop that adds the elements outwards, Bessel functions, the shape functions of variable elements | output |
| wasm, test | none | all |

## Plan and status per property

| Id | Status | Model | Proof | Property |
|----|--------|-------|-------|----------|
| C01 | proved | SetFam/Bufsize | the growth loop over Nat with fuel and over 32-bit words; fuel suffices, arithmetic, divergence by an invariant of the wrapped loop | Set growth policy always provides enough room |
| C02 | proved | SetFam/SSet | raw buffer of cells; refinement to list insert and erase, induction over histories | A sizeable set behaves like a sequence |
| C03 | partial | SetFam/SSet | negation for every fresh set; partial for what holds | Inserting beyond the end of a sizeable set default-constructs the gap |
| C04 | proved | SetFam/Sort | bounds-checked quicksort and insertion sort; partition invariant, strong induction on the range | Sorting an ordered set sorts it and loses nothing |
| C05 | proved | SetFam/Search | lower-bound loop invariant | Lookup in a sorted set finds a value exactly when it is present |
| C06 | proved | SetFam/Compact | loop invariant over cells with destroyed objects | Compacting an ordered set keeps each distinct value once |
| C07 | proved | SetFam/Indexed | permutation invariant over histories | An indexed set keeps insertion order and gives a sorted view |
| C08 | proved | SetFam/Keyed | refinement to an association list | Keyed sets are finite maps |
| C09 | proved | SetFam/Keyed, Indexed | refinement to a finite map, sorted-array invariant | Ordered and indexed keyed sets find keys after sorting |
| C10 | partial | SetFam/Assoc | negation for all contents; partial for histories without remove | Associative sets remove the key they are asked to remove |
| C11 | proved | SetFam/SortPairs | permutation of pairs and sortedness | Sorting associative sets keeps keys with their values |
| C12 | partial | Tree/Arena, Avl | array-linked tree refines an inductive tree, which refines a finite map; negation for separate key and value | The AVL map is a finite map |
| C13 | proved | Tree/Avl | balance and weight invariants by induction; Fibonacci height bound | The AVL tree stays ordered and balanced |
| C14 | proved | Tree/Avl | exactness of ranks from the weight invariant | Order statistics of the tree are exact |
| C15 | partial | Tree/AvlState | relabelling law of expunge; negation of the stronger claim | Element positions survive removals |
| C16 | proved | Tree/Rb | red-black invariant by induction over insertions | The left-leaning red-black map is a balanced finite map |
| C17 | partial | Tree/Rb | negation in general; partial for harmless keys | Removing a missing key from the pointer tree is harmless |
| C18 | proved | Table/Table | mixed radix bijection by induction over axes | Table addressing is a bijection |
| C19 | proved | Table/Table | memmove loops on a flat buffer, coordinate lemma | Adding a row or column to a table preserves every other cell |
| C20 | proved | Table/Table | as C19 | Removing a row or column from a table preserves every other cell |
| C21 | partial | Table/TableSys | state machine of table and axes; invariant without clears, negation with them | A table always agrees with its axes |
| C22 | partial | Table/Axis | invariant over histories; divergence by a loop invariant | Dependent axes follow their parent axis |
| C23 | partial | Links/Single | heap of nodes; negations in general, partial for the sound operations | Singly linked lists keep their elements |
| C24 | proved | Links/Owned | chain representation invariant over histories | Doubly linked and owned lists stay consistent |
| C25 | partial | Links/Listen | registration state machine; invariant, negation on destruction order | Events reach each attached listener once, in order |
| C26 | partial | Links/Progress | level table; induction on nesting | Nested progress events stay within their table |
| C27 | proved | Par/Task | labelled transition system, lock-atomic steps; inductive invariant over all schedules | The task queue delivers each result exactly once, in submission order |
| C28 | partial | Par/Task* | fairness and ranking argument; a trap invariant after an abort | Draining the task queue terminates, also after an abort |
| C29 | partial | Mem/Slab | slab list invariant; overrun witnesses in general | The slab allocator hands out disjoint, aligned, in-bounds blocks |
| C30 | partial | Mem/Slab | as C29 | Replaying requests after a reset returns the same blocks |
| C31 | partial | Num/Small | integers scaled by a power of two | Fixed-point numbers round to nearest and keep order |
| C32 | partial | Num/Small | byte lists with the hash as written; explicit collision | Constant strings compare consistently |
| C33 | proved | Num/Small | binomial induction, exact overflow set | Binomial coefficients are exact |
| C34 | proved | Num/Rng | 64-bit state words; bit invariant over regeneration | Random doubles stay in their advertised intervals |
| C35 | partial | Rv/House | heaps of counted objects; invariant over histories; call by call, defined iff allowed; roll as a loop over the sorted store; negations in general | Each random variable is rolled once per trial |
| C36 | partial | Var/Vunctor | decision logic per call against a specification of values (inductive) and rejections; flags as a fold over the events of a history; negations in general | Variant access is type safe and read/write tracking is sound |
| C37 | partial | Mat/Dense, Lazy | loop lemmas for the cell loops; dense results equal Mathlib matrix algebra; negations of getdense in general | Matrix expressions evaluate to what they denote |
| C38 | proved | Lin/Pack | cycle-following transpose as a permutation | In-place transposition transposes |
| C39 | partial | Lin/Pack | index arithmetic | Packed band and triangular storage addresses each entry once |
| C40 | partial | Lin/Gauss | invariant of elimination: row operations keep the solution set | Gaussian elimination solves the system |
| C41 | partial | Lin/LU | Doolittle invariant column by column | LU factorisation reproduces the permuted matrix and solves |
| C42 | partial | Lin/Chol | factor invariant row by row; square root uniqueness | Cholesky factorisation (full, packed and banded) solves |
| C43 | proved | Lin/Chol | as C42 | LDL factorisation solves |
| C44 | proved | Fft/Fft, Real | induction over the log length | The inverse FFT undoes the forward FFT |
| C45 | partial | Thermal/Thermal | partition of unity and node identities; walk of the interpolation loop | Interpolated temperatures agree with nodes and stay consistent |
| C46 | proved | Thermal/Step | fixed points of the step | Thermal equilibrium is preserved by time stepping |
| C47 | proved | Pave/Princ | similarity invariants; geometric decrease of the off-diagonal norm | Principal stresses are the eigenvalues of the stress tensor |
| C48 | partial | Pave/Abcd | transfer matrices; energy argument for uniqueness | The layered elastic coefficients satisfy the boundary conditions |
| C49 | proved | Pave/Axial | algebra and sums over loads | Rotating axisymmetric results to Cartesian axes preserves the stress tensor |
| C50 | partial | Pave/Sys | cache invariant over histories; negations as histories | Pavement results are never stale |
| C51 | partial | Pave/Sys, Point | placement characterised; negations | Every evaluation point is assigned the layer that contains it |
| C52 | partial | Pave/Point | order laws; negations | Evaluation points are ordered consistently |
| C53 | partial | Libop/Handles | refinement of table and heap to a partial map, over the AVL model; negation by C12 | Handles of the C interface are unique and die when reset |
| C54 | partial | Pave/Sys | layer list laws; negations | Layers are inserted where the caller asks |
| C55 | partial | Traffic/Traffic | digit induction; negation in general | Fixed-width integer fields parse to their value |
| C56 | proved | Traffic/Traffic | case analysis against independent limits | Every accepted vehicle is counted exactly once |
| C57 | partial | Traffic/Traffic | sums over days; negations | Survey totals are the sums of the days in range |
| C58 | partial | Num/Fzero | loops with fuel over an arbitrary function; invariant (bracket inside the limits, signs differ); the function outside the limits is irrelevant (extensional); negations | Root finding returns a root inside the bracket |
| C59 | partial | Num/Fmin | both loops over an arbitrary function, with the points looked at; invariant (best point inside the bracket); negations in general | Minimisation never returns a worse point than it has seen |
| C60 | proved | Fem/Shape | per shape, field arithmetic; derivatives by HasDerivAt; the kink of the absolute value by one-sided slopes | One-dimensional shape functions of the finite elements |
| C61 | partial | SetFam/Indexed | invariant; witness for iset | The rank query of an indexed set is the inverse of sorted access |
| C62 | partial | Tree/AvlRemove | negation for all key pairs | Removing by reference equals removing by value |
| C63 | proved | Tree/RbRemoveOk | refinement to a finite map | The pointer tree is a finite map while present keys are removed |
| C64 | partial | Table/Axis | negation in general | Lookups outside the axes of a table are rejected |
| C65 | partial | Table/TableSys | cells constructed at creation | Every cell of a table is an object |
| C66 | partial | Links/Owned | negation for every non-empty list | Destroying a plain doubly linked list frees its elements |
| C67 | proved | Fft/Real | algebra of the packed spectrum | Real transforms invert and convolve |
| C68 | partial | Pave/Abcd | interface algebra; singular wave number by the intermediate value theorem | Partially bonded interfaces obey the slip law |
| C69 | partial | Pave/Axial | algebra; negations | Asking for gradients leaves the results alone and gives difference quotients |
| C70 | partial | Pave/Kalman | normal equations; negations | Back-calculation steps are the least squares steps of the deflections measured |
| C71 | proved | Pave/Axial | independence of the stopping rules | The integration stops only when nothing more is added |
| C72 | proved | Traffic/Traffic | date arithmetic | Dates in records decode to the date they name |
| C73 | partial | Traffic/Traffic | reading loop | Reading a line takes exactly one line |
| C74 | proved | Traffic/Traffic | fold over files | Processing record files counts every record of a covered day once |
| C75 | partial | Thermal/Step | banded system of the step | Time steps of the heat flow follow one scheme |
| C76 | proved | Thermal/Step | energy norm | Time stepping of the heat flow is stable |
| C77 | partial | Thermal/Run | construction outcomes | The thermal solver accepts exactly the meshes that fit the layers |
| C78 | proved | Thermal/Elem | integrals of shape functions | Thermal element matrices are consistent with the interpolation |
| C79 | partial | Libop/Le | cache invariant of C50 through the calls | Results through the C interface are those of the current pavement |
| C80 | partial | Libop/Le | case analysis; negations | Numbers of layers, loads and groups in the C interface |
| C81 | partial | Libop/Le | placement and lookup of each point | A pavement calculated in a single call |
| C82 | proved | Mat/Lazy | heap of counted objects; invariant (count = references, operands older) and simulation of environments of matrices | Matrices that share storage behave as values |
| C83 | proved | Mat/Dense | structural induction over expressions; assignment recursion as a loop invariant | Fixed-size matrix expressions evaluate to what they denote |
| C84 | partial | Var/Owner | objects with their holders; invariant (held objects alive, one holder) over histories; negations for every state with a held pointer | Pointers stored in variants are deleted exactly once |
| C85 | partial | Fem/Elem | array writes and corrections in order; entries by level; sums over the numbering by induction; patterns by cases; negations | Shape functions of the solid elements |
| C86 | partial | Fem/Stiff, Fem/PropsInf | exact linear algebra over an ordered field: elimination as a program, element matrix as a sum over Gauss points; energy as a sum of squares; negation in general | Stiffness of a finite element |
| C87 | proved | Fem/Gauss | moments in closed form with square roots, then every polynomial by linearity against Mathlib integrals | Integration over a finite element |
| C88 | partial | Fem/Sparse | nodes in an array with pointers as indices; invariant over every sequence of blocks (pointers in the order of the rows); refinement to the sum of the blocks; negations in general | The sparse stiffness matrix |
| C89 | partial | Fem/Chol | the loops as programs over blocks; invariant over the columns and over the nodes of a column; merging of two columns by functional induction; substitution by loop invariants; negations | The preconditioner of the finite element solver |
| C90 | partial | Fem/Solve | the loops over nodes, elements and prescribed values as programs; assembly by induction over the elements to the stiffness of the mesh; conjugate gradients by an invariant (conjugate directions, so that the steps are bounded by the dimension); fixed directions decouple in the matrix and the preconditioner; negation in general | Solving the finite element system |
| C91 | proved | Lin/Orth | loop invariant over the columns: scalar products, the triangular matrix of the combinations, the memory outside | Gram-Schmidt |
| C92 | partial | Lin/Eig | reflections row by row keep the bilinear form and the scalar product; rotations as a loop invariant on the quadratic form of the tridiagonal matrix, with what is dropped added to a bound; selection sort as transpositions of columns; small forms of symmetric matrices give small products | Eigenvalues of symmetric matrices |
| C93 | partial | Lin/Qr | loop invariant over the columns (reflections so far, columns done); linearity of reflections; determinant of the triangular matrix; negation in general | QR decomposition and the solution of equations by it |
| C94 | partial | Lin/Svd, Lin/SvdAcc, Lin/SvdDiag, Lin/SvdUse, Lin/SvdWide | reads of the work array checked; substitution by loop lemmas; least squares by Pythagoras; reflections as matrices, and their accumulation as products of reflections on unit vectors; iteration by bilinear forms kept under rotations, with one unit of error for every number left out; a matrix with fewer rows than columns by relating the run, loop by loop, to that with rows of zeros below it | Singular values and least squares by them |
| C95 | partial | Pave/Simplex | the loop with a count of rounds; the simplex as a list of points with their errors, and the points tried as a history; invariant: values are errors of points tried, the first is least after sorting; negations in general (one layer) and by a witness | The simplex step of the back-calculation keeps the best moduli it sees |
| C96 | partial | Pave/DeflGrad | conjugate gradients in the span of the gradients, weighted; invariant of conjugate directions with non-negative angles, so that lengths grow and the minimum is ahead; negations by witnesses | The gradient step of the back-calculation moves towards the measured deflections |
| C97 | partial | Pave/Bouss | derivatives of the formulae by HasDerivAt and polynomial identities in the square root; integrals by antiderivatives; negation in general | Boussinesq's stresses and displacements are those of a loaded half-space |
| C98 | partial | Pave/Odemark | loop invariant over the layers (equivalent thickness, pending correction, contributions so far) against sums; negations in general | Odemark's method transforms layers to half-spaces of equal stiffness |
| C99 | partial | Pave/Quad8 | recursion with the static variables as a state; integrands by antiderivatives along a ray; the nine-point rule exact for degree nine; negation in general | The adaptive integration of the half-space gives the circular load |
| C100 | partial | Pave/Gauss | recurrence, derivative and differential equation of the polynomials by induction; orthogonality by Green; kernel of Christoffel and Darboux; zeros simple and real by orthogonality; loop invariant for the table; first search by the sum over the zeros, first guess by four terms of the series at one; all guesses up to sixteen points by signs of integer polynomials and Taylor bounds of the cosine | The integration tables integrate polynomials exactly |
| C101 | partial | Pave/Driver | decision logic of the driver over arbitrary steps, induction over the rounds; instance with the steps of C70, C95 and C96; negation in general | A back-calculation that reports success has found moduli that no longer move |
| C102 | proved | Stat/Normal | residuals of the rational functions against the differential equation of the density, as integer polynomials whose signs are checked piece by piece in the kernel on shifted coefficients (Stat/Cert); monotone gaps integrated from infinity or zero; for the inverse the logarithm of the density ratio is bounded by its derivative, Mills ratios, and a third-order Taylor bound for the step | The normal distribution function and its inverse are accurate everywhere |
| C103 | proved | Stat/Normal | induction over pairs of calls; sums of roots of unity | The generator of normal numbers returns both halves of each pair, with mean zero and no correlation |
| C104 | partial | Stat/Dist | integrals over gaussianReal (moment generating function, symmetry, substitution of the distribution function); negation in general | Each random variable has the distribution it was made for |
| C105 | partial | Libop/CalME | refinement to C81, induction over the points with the places written so far; negation in general | The call for CalME writes each result to its own place |
| C106 | partial | Fem/Nodes | refinement of the array to a tree (Fem/NodesMem), insertion into the sorted list, counts, and balance as a 2-3-4 tree by induction over the black height (Fem/NodesTree); induction over histories; witnesses for stale copies and duplicates | A place in a mesh has one node, and nodes are found and listed in order |
| C107 | proved | Fem/Loads | refinement of the tables to a function of place and direction, invariant over histories that mix nodes, displacements and forces; corollary with the hypotheses of C90 | Displacements and forces of a mesh are those that were given |
| C108 | proved | Fem/Blocks | refinement of the calls to C106, invariant that the noted neighbours are the arcs of the elements so far (Fem/PropsBlocks, Fem/PropsGrid), strict monotony of the rounded divisions along the lines of a grid (Fem/PropsBox); negations in general and by a witness | The elements of a mesh share the nodes where they meet |
| C109 | partial | Fem/Variable | refinement of the loop over the corners to the notes of C106, with the invariant that corners and middles not yet visited are as before (Fem/PropsMask, Fem/PropsMesh); corollary for the grids of C108; witnesses for the negations | A variable element takes up the nodes on its sides |
| C110 | partial | Fem/Area | the slices of the disc beyond a corner and the fundamental theorem of calculus (Fem/AreaLemmas); blocks by inclusion and exclusion up to null sets and by mirrors; sums by telescoping; negations from positive measure of open sets | The load on a block is its area below the tire |
| C111 | partial | Fem/Region | induction over the loops of merge; the density of the rationals for overlaps; negations in general | Regions of a mesh overlap, merge and coarsen as areas |
| C112 | proved | Fem/Field | induction over the recurrence; loop invariants for the triangular table; expectation of products of sums of uncorrelated numbers and C42 for the decomposition; standard normal numbers from the moments of the Gaussian measure | Random fields over the surface have the correlation asked for |
| C113 | partial | Fem/Depth | case split on the layer and field arithmetic; every combination of sides for infinite elements, for every group of nodes; negations in general | Nodes below a varying surface move with their layers |
| C114 | partial | SetFam/Own | invariant of the buffer size over histories (C114_buffer); the copies within the buffer cell by cell; negations in general | A set accepts its own elements, and itself, as arguments |
| C115 | partial | Fem/Stops | invariant of the stretch of one layer (the stops above are kept, those below increase from the equivalent bottom to the end), induction over the layers; induction over the loops that make the stops; lists split at the interface for the thin elements; negations in general, by counting and by order | The stops in depth follow the layers |
| C116 | partial | Pave/Stopping | invariant of the search (the signs at the ends differ); termination by uniform continuity: the ends stay apart, so each round takes away a fixed length; the loops down the tables by their specification; negations in general | The integrals stop at a zero of what is left out |
| C117 | partial | Pave/Panels | sorted lists of distinct values by their first, last and all members; the added points keep order and range, by induction over the loops; negations in general and by a witness | The intervals of integration cut the range up to the stopping point |
| C118 | partial | Var/Simple | case split on calls; induction over the list of types for the recursion of set_r; the values of C36 for the source; negations in general | Simple variants, realizations and fixations hold values of their own |
| C119 | partial | Var/Valid | case split on calls; the first matching type by induction over the list; negations in general | Validators ask their function about values of their type only |
| C120 | partial | Fem/Outward | counting the elements over a point: invariant over the rounds (what is filled is covered once, its stops are stops of what is being filled); the grids of the program in closed form for all rounds; negations in general and by a witness | The elements of a mesh fill the space under the loads once, up to the edge |
| C121 | proved | Pave/Dirty | induction over the intervals with the row handed on as invariant; existence of the interpolant by induction; the error by convexity from the second derivative, which exists because everything divided by differs from zero (C48) | The dirty procedure integrates an interpolant of the response |
| C122 | partial | Num/Types | the cut by list lemmas; the hash step is injective in the state and in the byte because the prime is odd; the collision by evaluation, extended to all continuations by the fold | The name of a type is exact, and types compare as their names do |
| C123 | partial | Num/Types | invariant over histories: every array allocated is deleted, owned by exactly one object, or lost by an assignment, and only one of these | An array given to an owner is deleted exactly once |
| C124 | partial | Traffic/RSADate | induction over the lines, with the lines left as invariant; compared with the records of C74 | The date of a survey file is that of its first vehicle |
| C125 | partial | Pave/Axial, Pave/Abcd, Pave/BesselJ | derivatives of each integration point from the differential equations of the Bessel functions and of the exponentials; elastic states form a linear space, so sums over points and loads stay in it; change from cylindrical to Cartesian axes with the derivatives of the direction; negation for every half-space | Inside a layer the calculated stresses and displacements are an elastic state in equilibrium |
| C126 | proved | Libop/CopyRes | the table for arbitrary contents by cases over the places; the relations from C47 | The 27 numbers returned for a point are all results of the point, each once, and belong together |
| C127 | proved | Traffic/Traffic, Traffic/PropsTotals | sums over the lanes, types and bins; the axles of consecutive groups add up to those of the vehicle; induction over the records | Totals of a traffic day |
| C128 | partial | Pavements and layers are numbered; `World` holds first, last and mark of each pavement and prev, next and owner of each layer; `view` gives the list of C24 restricted to layers of that owner (meeting any other is undefined); `reown` is the loop of the move constructor. | Refinement by induction over the history (`mop_ok`), each step by the theorem for lists with an owner of C24 and a frame argument for the other pavements. | Moving a pavement |
| C129 | partial | `bessi0`, `bessi1`, `bessk0`, `bessk1` with the coefficients of the source as rational numbers. | A verified check that a polynomial is not negative on an interval (`pcheck_sound`), evaluated by the kernel; remainder of the power series by a geometric series; the logarithms cancel in the relation and are bounded by rational functions in the correlations. Between 2 and 3.75 the derivative of the logarithm of the relation is bounded by the same check, and the mean value theorem is used (Fem/PropsBesselMid). | The modified Bessel functions and the correlations made of them |
| C130 | proved | the constructor of a load and its three numbers (Pave/PropsLoad.lean) | direct, with real square roots; the impossible numbers are characterised by the loads that exist | A load is given by two of its three numbers |
| C131 | partial | the loop over the runs with failures of the solver as a history, the file names as codes of characters, and the numbers written (Fem/Runs.lean) | invariant over the rounds: the runs up to a number are complete and only the next may have been begun; injectivity of the decimal representation; blocks of equal length | A batch of simulated pavements leaves a pair of results for every run |
| C132 | partial | the files as lists of numbers, a start of the program as a list of changes of which any prefix may happen (Fem/Runs.lean) | the changes of a start split at a layer; files that exist are never touched | Saved correlations are complete and belong to the mesh |
| C133 | partial | the two loops of the line search on three places and their values, with fuel for the first, and the rounds of the conjugate gradients over it (Pave/LineSearch.lean) | invariants of both loops over the golden section; for the failures, the course of the first loop on convex falling functions by induction, and on the parabola by calculation | A line search never makes the fit worse, and ends at a minimum |
| C134 | partial | the arrays of places, speeds and best places, the sweep, the pulls and the moves (Pave/Swarm.lean) | invariant: each best place is one that was tried and the best of all is kept; a pull needs a smaller error, so the places differ and the distance is not zero | The particle swarm returns the best moduli it has tried |
| C135 | partial | Num/Fzero | algebra of divided differences; sign analysis of copysign | The fits of the root search are exact for their curves |

## Notes per property, and where code and property disagree

* **C01** (proved). Exact arithmetic for all (length, block); the 32-bit loop agrees up to 2^29 and is proved never to end above 2^30 for the default block.
* **C02** (proved). All histories with insertions up to the current length and removal lengths that do not overflow unsigned; the overflowing case is proved to be undefined behaviour.
* **C03** (partial). The property is false: the element just before the insertion point is never constructed (proved for every fresh set). The partial theorem gives what does hold.
* **C10** (partial). The property is false: remove acts on the next element (proved for all contents). Histories without remove are proved.
* **C100** (partial). Proved for every number of points: the loop evaluates the Legendre polynomial, the search is Newton's method, the zeros exist, the first search ends next to the largest zero for every tolerance, the search for the middle one of an odd number ends at once, and the table made from the zeros is exact with positive weights. For up to three points all searches end within two tolerances of the zeros. Every other zero is found from all starts between it and some larger number, with an error in proportion to the tolerance. For up to sixteen points, which is all the code makes, all searches from its guesses end for every tolerance, within two tolerances of different zeros. Their tables integrate as exactly as wanted if the tolerance is small enough. Missing: the same for more points, and the size of the error of an integral for a given tolerance.
* **C101** (partial). Proved for every relation between moduli and deflections: moduli that the test step hardly changes are kept; all others end between the bounds; success means that the last step was at most the tolerance (or exactly the tolerance, and dropped); the seed of a half-space is its modulus. The end is by construction, with the number of rounds as fuel, if the simplex step ends (C95). The code: if the test step leads to moduli that give the measured deflections exactly, the last step divides zero by zero and success is reported with all moduli equal to 10 (proved in general, with a concrete back-calculation).
* **C102** (proved). Proved in exact arithmetic with the coefficients and branches of the code, so the error is that of the approximation, not of rounding: at most 5e-16 of the smaller tail for the distribution function and 1.2e-14 for the inverse (for probabilities down to 2^-1074). The comment in the code that one step of Halley's method gives full machine precision is right to 54 units of the last place.
* **C103** (proved). Proved in exact arithmetic for one thread, with M_2PI taken as twice pi. The static state is shared by all callers, so calls from several threads race; that is not modelled.
* **C104** (partial). Proved in exact arithmetic, with expectations over the normal distribution of Mathlib. The code: the standard deviation of a discrete variable is wrong for every variable with more than one value, because the square root of the number of values is taken where its square belongs (proved in general); a negative standard deviation of a normal variable is accepted and reported; a discrete variable is below its lower bound at minus infinity.
* **C105** (partial). Proved for up to 150 points, for every numerical method. The code: nothing refuses more than 150 points, and then results of later points overwrite those of earlier ones (proved for every such call).
* **C106** (partial). Proved for every history in which a node is copied, changed and stored without adding nodes in between, as all callers do. The code: updatenode also stores the links of the tree, so that storing a copy made before another node was added loses that node (proved by a witness); node_list::add of a place that has a node spoils the counts if assertions are off (witness), which mesh::addnode prevents. Numbers of type unsigned are exact.
* **C107** (proved). A plane across two directions is an assertion, here undefined. Doubles are exact. C107_system gives what C90_solve asks of a mesh, for the first call of the solver; the elements are still arbitrary there.
* **C108** (proved). Doubles and whole numbers are exact. A contradiction between neighbours is an assertion, here undefined. The code: a box thinner than one unit of the coordinates (1/256) for each node never gets through (proved in general), and corners of a box in an order that is not a mirrored one may be accepted (witness). Variable and adaptor elements are not part of this property.
* **C109** (partial). Proved for every mesh: which nodes are found, their numbers, the neighbours, and when the element is refused; and that under a regular mesh of half the width these are the right ones. The code takes any neighbour of a corner for the middle of a side: under a mesh that is finer in y only, the element gets a node twice; next to a single finer block it depends on the corner whether the nodes are taken up, left out or the mesh fails; under a mesh of a third of the width the nodes at a third are taken for the middles (witnesses). The property is about distinct corners; a contradiction is an assertion, here undefined.
* **C110** (partial). Proved in real arithmetic, with the area as Lebesgue measure: what lies beyond a corner, every block without an axis through its inside, every block within the circle, and the total of all blocks between lines that include the axes. The code is wrong for blocks with an axis through them that are partly outside: what is found is the area beyond the block (C110_straddle; the maximum is taken where the minimum belongs and the part beyond is not subtracted), so that a block across the edge gets nothing, and so does every block with all corners outside, even if it covers the load. Nodes on the axes of a tire have such blocks, so that their load is lost (C110_tire_wrong).
* **C111** (partial). Overlaps, stops, ends and coarsening are proved for all regions. The code: a region that grows in merge is not compared again with those it was compared with before, so that overlapping regions can be left (proved in general for three regions; two are always apart, and a call that takes up nothing leaves all apart); the ends of a list always include the origin; with an even number of stops the last one is lost, which an assertion forbids.
* **C112** (proved). In real arithmetic, for every decomposition that succeeds (C42) and for numbers with mean zero and unit variance that are not correlated; independent standard normal numbers are such (white_normal). The Bessel functions of order zero and one are parameters here; their polynomials are modelled in C129, and the files in which decompositions are kept in C132.
* **C113** (partial). Proved for all layers, variations and heights where the node has a node on the surface above it. Where there is none, the variations are read outside their arrays (C113_above_wrong), and nothing keeps a layer from being taken away by the variations, which turns its elements inside out (C113_order). The function for the variation of the modulus, which is not called, always reads outside (C113_modulus_wrong); buildEe gives the modulus of the material at every node.
* **C114** (partial). True for additions at the end, and for insertions of an element that is not after the place, as long as the buffer has room. With a full buffer every such call reads freed memory; an element after the place is moved before it is read, so that the one before it is inserted; a set inserted into itself repeats its first elements; and a set assigned to itself is empty (all proved in general). The main program of fem3d inserts levels in this way.
* **C115** (partial). In exact arithmetic (the code rounds the stops to 1/256). Proved for all layers whenever no assertion fails. The code runs out of stops, and an assertion fails, if the equivalent thickness is at most three radii and there are more than three layers (C115_few_wrong). The thin elements are added without a look at the element they are cut from: with a stop within three of the interface (a first layer of three or less is enough) the stops are out of order (C115_thin_wrong); with space for them all is well (C115_thin_partial).
* **C116** (partial). Real arithmetic; the tables of roots are parameters. The zero is found, and the search ends, whenever the expansion has different signs at the two roots; the code does not check that, and with equal values returns no number, with the same sign leaves the interval at once (C116_refine_wrong). Missing: that the signs differ for the roots of the Bessel functions.
* **C117** (partial). Exact arithmetic; roots and stopping points are parameters. Proved in full for the modes of calculate. calc_accurate adds the points 7ia/z for great depths z whatever the stopping point: when that is smaller, as it is far from the load, the integration goes past it (C117_accurate_wrong). These points have no unit (7i/z was meant), so the intervals depend on the unit of length (C117_units_wrong); for points that are not deep they do not (C117_units_partial).
* **C118** (partial). Proved for plain types. The copy constructor of a simple variant and fixate assign to a slot that was never constructed: for a class type that is undefined (C118_copy_wrong, C118_fixate_wrong). Construction and assignment of a simple variant from a variant functor do not compile, and are not modelled.
* **C119** (partial). Copies and moves assign to a function object that was never constructed, which is undefined for every validator (C119_copy_wrong). If a derived type comes before its base in the list of types, a variable of the base type is never validated (C119_shadowed_wrong). Assignment from a function does not compile.
* **C12** (partial). Proved in full for self-keyed values. False for separate key and value types: remove exchanges two values and removes nothing (proved for all key pairs); the partial theorem says exactly what every history does instead.
* **C120** (partial). Proved for all runs with at most two regions that end (C120_once), and for the loads of the program with all stops, levels and layers including that the loop ends (C120_program), as long as the levels do not go up. The code: the thin elements below the third interface give a stop a lower level than the one above wherever the level changes at the interface, and then nothing is added at that stop under the loads (proved in general, C120_thin_wrong and C120_levels_wrong); the same loads 8 mm closer to each side end in a failed assertion (C120_position_wrong); an element from one edge to the other has an infinite element on one side only; three regions can be left overlapping by the merge (C111) and what they share is filled twice. Not modelled: the types of the elements and the sets of elements for the output.
* **C121** (proved). Real arithmetic; Bessel functions, points and weights are parameters. The bound of the error is for wave numbers at which no exponential is cut off, as in C48.
* **C122** (partial). Proved: the name, the order of type_index, the order of the names, that types of the same name are equal and that types whose names differ in one byte are different. The code: type_info and type_index compare only the hash, so the two types struct jeV2MGrGX5E and struct l_Ue8s5tsHl are equal (and so are any two longer names that begin with these and go on alike), although one comes before() the other (C122_equal_wrong). The text the compiler writes is taken from the macros.
* **C123** (partial). Proved: nothing is deleted twice or held after it was deleted, and exactly the arrays of owners that are assigned to are not deleted. The code: the move assignment overwrites the pointer without deleting the array, also when an owner is assigned to itself (C123_leak_wrong). Nothing in the library assigns to an owner.
* **C124** (partial). Proved: what is returned for every file (C124_exact), and that it is the day of the first vehicle counted for files that end with a line end and have no H0 line before the first vehicle. The code: a vehicle in a last line without a line end is counted but gives no date, so that the file is processed first (C124_last_wrong); a vehicle after an H0 line is not counted but gives the date (C124_trailer_wrong).
* **C125** (partial). Proved for the precise procedures: for all pavements and loads, the results as functions of the place are an elastic state in equilibrium if every integration point counts for all results or for none, with the true Bessel functions as one instance (BesselJ.lean, from Bessel's integrals). Whatever the stopping points, the results are such a state plus what the points between the two stopping points add (C125_rest). The code: it uses different stopping points for the vertical results and for the shear stress and radial displacement, and a point between them adds a state that is not elastic (C125_between_wrong). Not covered: the axes of the loads, where the code has a formula of its own (C49_below), and points where an exponential is cut off.
* **C126** (proved). Numbers exact; the shear strains returned are the changes of the angles (twice the tensor components).
* **C127** (proved). Counters are natural numbers (no overflow of int). Records of at least the 256 characters that are read.
* **C128** (partial). Layers, owners and marks proved for all histories. Results of the source: the code disagrees. The move constructor of the cache clears the mark of the new pavement but not that of the source, whose points, loads and results are copied (their classes have no move constructors); so a pavement that was calculated still says that its results are valid after its layers were moved away, and a calculation of it returns at once (src/pavement.h:392-394, 441-446; src/pavement.cpp:309). Proved after every history. list_owned::operator=(&&) (include/list.h:424-431), which has no return statement, is not used by LEsystem and not modelled; nor are derived classes.
* **C129** (partial). Real arithmetic, all arguments in the ranges named. The relation between the four functions holds for every argument. Missing: the power series for arguments from 3.75, and the functions of the second kind one by one (their limit values contain Euler's constant). The correlations are complete: every distance and range, orders 1 and 2, which are those the program uses.
* **C130** (proved). Real arithmetic; a radius that is not a finite number counts as no load.
* **C131** (partial). Proved for every history of failures. The code: the pavement without variations is the same in every run, so if its solution fails once it always fails, and then the program goes on for ever and writes the results with variations of the first run again and again (proved in general, C131_endless_wrong). The opening of the files is not checked.
* **C132** (partial). Holds for starts that are not stopped, from files that are complete or not there. The code makes the file before it calculates, and never looks whether a file is complete: stopped in between it leaves a file that every later start reads too short, using numbers that were never set (C132_stopped_wrong, all crash points); a matrix that is not positive definite ends the first start only, and later ones go on with an empty file (C132_indefinite_wrong); the files of another mesh are used as they are (C132_mesh_wrong).
* **C133** (partial). Proved: the result is never worse than the start, and is a minimum within the tolerance if the first loop has found a bracket in order. The code: the turning point of the parabola is taken on the wrong side (C133_turn_wrong); the first loop never ends for a convex error that falls all along the direction (C133_never_ends); for an error that falls ever faster the bracket is out of order and the search ends where the error still falls (C133_falling_wrong). The last two are for whole families of error functions.
* **C134** (partial). Proved for every error function whose logarithms are below the largest double and grow with the error (exact arithmetic): no division by zero, limits kept, best of all places tried; no further places are tried once one at the start is below the limit. The code never tries the moduli it was given, so the result may be worse than the start (C134_start_wrong, in general). The call of the function is commented out in the code.
* **C135** (partial). Exact arithmetic with an exact square root. Inverse interpolation and Muller's method are proved exact. Ridder's method is exact only if the value in the middle is positive; if it is negative the sign of the value is dropped, and the guess is the mirror image of the root (proved in general).
* **C14** (proved). Ranks in C14_avl_ranks; stored weights are in C13_avl_balanced.
* **C15** (partial). Density, bijectivity and link consistency proved; 'no other element moves' is false, and the partial theorem gives the exact law of movement.
* **C16** (proved). All insertion histories; the private remove of the class cannot be called and is not modelled.
* **C17** (partial). False for every non-empty tree and every key above all stored keys (proved in that generality). The partial theorem: otherwise contents are unchanged, and keys below every stored key are harmless.
* **C19** (proved). Cells of a plain-old-data type are left with unspecified contents when new, as in the code.
* **C21** (partial). False: clearing one axis zeroes every extent (proved after every history, with the out-of-bounds lookup that follows). All histories without clears are proved.
* **C22** (partial). False: removing a parent with two entries never returns (proved for all keys). Histories that only remove parents without entries, or with one entry that is last, are proved.
* **C23** (partial). False: inserting before the first element makes a cycle, removing a later element also loses its predecessor (both proved in general). The partial theorem covers the remaining operations.
* **C24** (proved). One owner; element moves between lists (move construction of the owner) are not modelled.
* **C25** (partial). All histories in which dispatchers outlive their listeners; destroying the dispatcher first makes the listener's destruction undefined (proved after every history), and a position named on an empty dispatcher is undefined.
* **C26** (partial). Balanced sequences proved at any depth; every sequence with a stop too many writes before the table.
* **C27** (proved). All schedules, any number of workers. Exceptions other than those thrown by tasks or callbacks (allocation failure) are not modelled.
* **C28** (partial). False after an abort with tasks still queued: drain, force_single_threaded and the destructor never return (proved for every continuation, and the state is reachable). Otherwise every call returns in every fair execution.
* **C29** (partial). False as requested from the system: the last blocks of the first slab, and any block of at least a page, end past the memory obtained. Proved when every slab has 16 spare bytes and requests are below a page.
* **C30** (partial). False in general (witness): blocks skipped when a slab was full are not skipped on replay. The partial theorem gives the addresses that do agree.
* **C31** (partial). Conversion is within half a unit except for the number just below a half unit, where the addition of a half rounds up.
* **C32** (partial). Order is total on strings without null characters; equality is by hash only and collides (two explicit ten-character strings).
* **C33** (proved). The exact set of arguments for which the int arithmetic does not overflow is given.
* **C34** (proved). All seeds and all sequences of requests. The logarithm, sine and cosine of the normal deviates are those of the reals.
* **C35** (partial). Counts, once-only sampling in key order and exactly which calls are defined are proved for every history. The code breaks the lifetime part: realizations do not keep their random variable alive (C35_variable_gone_wrong), no program can destroy a house and all realizations (C35_house_gone_wrong), self-assignment of a sole random variable uses it after deletion (C35_self_assign_wrong), and assignment keeps the old house (C35_assign_house_wrong).
* **C36** (partial). Types, rejections without effect, values and the three flags are proved for vunctor, for every list of types and every history, with plain values and pure functions. The flags do not reject exactly cyclic use: chain accepts a cycle and reading then does not return (C36_chain_cycle_wrong), assignment from another variable skips the check for use (C36_assign_used_wrong), and a copy that was only read is rejected (C36_copy_read_wrong). A type listed after one that can be read as it cannot be read (C36_shadowed_wrong). Simple variants and validators are in C118 and C119.
* **C37** (partial). Dense arithmetic is proved. getdense of a negated or transposed matrix gives the operand itself (C37_getdense_wrong); sums, differences, products and inverses held as operators read as their first operand because evaluate is empty (C37_operators_wrong).
* **C38** (proved). Termination, the transpose and nothing else written, for every shape; 32 bit wrap of m*n is not modelled.
* **C39** (partial). One to one for triangular storage and for bands no wider than the order; for wider bands (up to twice the order, beyond which the size wraps) the last diagonal entry lies outside the advertised storage.
* **C40** (partial). Exact arithmetic over an ordered field.  The determinant returned by inv_mul_gauss ignores row exchanges, so its sign can be wrong; entries below DBL_EPSILON are treated as zero, so some nonsingular matrices are rejected.
* **C41** (partial). Exact arithmetic over an ordered field.  decmp_lu returns exactly for nonsingular matrices each of whose rows has an entry of at least DBL_EPSILON; other nonsingular matrices are rejected.  The determinant of the empty matrix is reported as zero.
* **C42** (partial). Exact arithmetic over an ordered field with square roots.  Full and triangular storage are settled for all matrices; the band versions for widths up to the order, beyond which the storage macros are wrong (C39).
* **C43** (proved). Exact arithmetic over an ordered field; also characterises exactly when the decomposition is refused.
* **C44** (proved). Exact arithmetic: the truncated sine series of the template is replaced by the sine.
* **C45** (partial). Proved for sorted depths on every sound mesh after every history. Inner nodes and polynomials need the nodes of an element equally spaced, which the code does not check; counterexamples for unequal nodes and unsorted depths.
* **C46** (proved). Uniform profiles and profiles of constant flux through any layers, any number of steps, exact arithmetic.
* **C47** (proved). Real arithmetic without rounding. C47_fem is the same for the copy in the finite element code.
* **C48** (partial). For bonded layers, any number of them, in real arithmetic: no division by zero, all surface, interface and base conditions hold, and the coefficients are the only solution, for every wave number whose exponential is not cut off at an interface (the lowest one above an infinite layer does not matter, so one layer and two layers are right for all wave numbers). The code replaces exp(2mh) by the largest double above MAX_EXP: the conditions still hold at every other interface, but not at that one (proved for three layers of different moduli and all such wave numbers, C48_cut_wrong). How small the error is is not proved.
* **C49** (proved). Real arithmetic without rounding; load radii are equal or differ by more than DBL_MIN. C49_superposition is about the whole loop over radii, groups and loads.
* **C50** (partial). Holds for every history of edits and evaluations that keeps one gradient direction and does not mix the cached and uncached procedures (C50_current_partial). False in general: a second call with another direction keeps the old gradients (C50_direction_stale), a fast evaluation after another procedure walks a foreign cache (C50_foreign_cache), and backcalculation leaves points, moduli and results that do not belong to the final system (C50_backcalc_*).
* **C51** (partial). check() is characterised exactly (C51_check) and the assigned layers are sound for any evaluation whose points were placed by it. After an edit a point keeps the layer it was given earlier although it now lies in another one (C51_kept_layer), or the evaluation is refused although a layer contains it (C51_rejected).
* **C52** (partial). The plane and depth orders are total orders in exact arithmetic; the three-dimensional order is not antisymmetric (C52_point3d_both), and rounding or signed zeros break the plane order.
* **C53** (partial). Every history of calls in which no handle is destroyed below another live one. Destroying a lower one loses the wrong handle, because the tree does not move values with their keys (C53_reset_wrong); C53_moving_keys is the full property for a tree that does. The first heat flow handle is 0, the error value (C53_ht_zero), and no layers read past the array (C53_ht_no_layers).
* **C54** (partial). A position past the end inserts before the last layer, and below a layer of zero thickness the depths restart (both proved in general).
* **C55** (partial). Proved for numbers without a sign, and that only the field is read. False for every negative number: -d...d with k digits of value v gives 3*10^k - v (C55_negative).
* **C56** (proved). For every record, rounding of the arithmetic and date function. Counters are unbounded.
* **C57** (partial). Counters add componentwise, and reading is right if the last stored day is out of range. Otherwise that day is added twice (C57_read_fails); the average axle spacings become not a number once a type has no axles (C57_spacing_fails) and are otherwise sums (C57_spacing_sum).
* **C58** (partial). For every function and start inside the limits: a returned point is a root or next to a change of sign, the function is not looked at outside the limits, and the loops end. fzero itself does not reject a start beyond a limit and its invented second point may lie beyond the lower limit (negations).
* **C59** (partial). For every function: the refinement stays in the bracket, returns its best point and uses at most 100 points. The bracketing loop also ends on a peak, which is then returned although both ends are better (negation in general), and its extrapolation is mirrored when it moves to the right (negation in general).
* **C60** (proved). Over any ordered field; the derivatives over the reals. The displacement functions of infinite ends decay and so add up to less than 1; their mapping functions add up to 1.
* **C61** (partial). True for kiset (proved for all histories); false for iset (witness).
* **C62** (partial). False when the element has a right child (proved for all pairs of keys); proved when it has none.
* **C64** (partial). True for keys, false for positions (proved for all extents).
* **C65** (partial). False for class types whenever no axis is empty (proved in that generality); when an axis is empty at construction every cell is an object in all histories (C21 partial).
* **C66** (partial). False for every non-empty list.
* **C67** (proved). Exact arithmetic, as for C44.
* **C68** (partial). Vertical stress, shear stress and deflection stay continuous (C68_conditions_partial). The rest is false: the jump of the radial displacement is not the one of the slip law when Poisson ratios differ (C68_law_fails), the system is singular at some wave number for a weak bond (C68_singular), and a factor of 0 or a partly bonded base divides by zero (C68_no_bond, C68_base).
* **C69** (partial). Deflections and gradients are right when all loads have one radius (C69_single_partial, C69_directions_partial). False otherwise: radii after the first are calculated with the moduli of the last gradient (C69_several), which is wrong for every half space (C69_half_space_fails), and strains in the last layer use that modulus even for one radius (C69_strain_modulus).
* **C70** (partial). Both steps minimise their objective when every deflection belongs to the default load group and the linear algebra is exact. False otherwise: deflections of another group get the gradient of the default group (C70_group_fails), and an exact fit gives 0/0, which sets every modulus to 10 and reports success (C70_exact_fit, C70_exact_fit_result).
* **C71** (proved). Real arithmetic; Bessel functions, integration points and stopping points are parameters. The interpolation of the dirty mode is C121.
* **C72** (proved). mktime is a parameter.
* **C73** (partial). Proved for lines that end. A last line without a line end gets an additional space (C73_last).
* **C74** (proved). Files that can be opened. The listing of the directory is not modelled (its POSIX version does not compile).
* **C75** (partial). Every step but the first; the first is a fully implicit half step unless the initial profile is in equilibrium, which is proved as an equivalence.
* **C76** (proved). For every time step, initial profile and step count.
* **C77** (partial). Acceptance and rejection are proved; a mesh that starts an element at or below the last layer reads past the layers, proved for a family of such meshes.
* **C78** (proved). Integrals over the reals.
* **C79** (partial). Proved for every history and every existing group and result number. A number past the end is undefined instead of an error (C79_past_end).
* **C80** (partial). Layers, loads, groups and points after every history are those of an independent book of numbers (C80_book, C80_points). Groups are numbered from zero when a load is added and from one when it is removed (C80_groups_differ), and adding to a group beyond the next one is undefined, the only undefined call (C80_defined).
* **C81** (partial). The calculation is proved for every input. The status of the back-calculation is inverted (C81_backcalc_status).
* **C82** (proved). Every history of the matrix class against environments of independent matrices, with exact reference counts.
* **C83** (proved). For the template metaprogram build. expr / d does not compile when used and is not covered for anything but a plain matrix.
* **C84** (partial). Proved for programs that give each pointer to one variable and do not copy, move or assign variables. The code breaks the rest: copies, moves (move sets a temporary to null, not the source) and assignments share the pointer and delete it twice, and setting the held pointer again or self-assignment keeps a deleted one. The copy constructor of the simple variant (C118) deletes an uninitialised pointer.
* **C85** (partial). Blocks: every shape. Variable elements: every pattern in which a level with a node in its centre has one on each side; without that another function need not vanish (negation). Adaptors: the sum holds for eight patterns per level, and fails in the middle of the level for each of the other 24, such as two sides that meet (negation in general). Under a regular mesh of half the width the search among the neighbours gives a pattern for which all is right; with one finer block above a corner it gives patterns for which the functions are wrong (witnesses).
* **C86** (partial). For every material, position of the nodes and list of Gauss points. The elimination does not exchange rows, so an element turned by a right angle, whose first pivot is zero, is rejected although its mapping is regular (negation in general); boxes along the axes are not, also when some of their sides are infinite. Missing: infinite elements that are not boxes along the axes.
* **C87** (proved). Over the reals, for every polynomial of degree 3, 5 or 7, and 5 for the rule of the loads. For infinite directions the integrand is not a polynomial and nothing is claimed beyond that degree.
* **C88** (partial). Proved over exact fields for all sequences of blocks. The code: tidying counts nodes in 16 bits and does not end for a column of more than 65535 nodes (proved in general, with a sequence that gives such a column); the unused full decomposition asks for at least 2^31 nodes for every column with one, and the unused count of blocks counts down.
* **C89** (partial). Proved in exact arithmetic for every matrix on which the decomposition succeeds. The code: pivots are compared with the fixed number DBL_EPSILON, so that a matrix with small entries is refused (proved in general); and a positive definite matrix of five nodes is refused because blocks that are non-zero only after two eliminations are left out (proved by a witness).
* **C90** (partial). Proved in exact arithmetic for every mesh: assembly, boundary conditions, preconditioner and conjugate gradients. The code: for a mesh at rest (no load and zero displacements) the step is zero divided by zero, so that the displacements are not numbers or an assertion fails (proved in general).
* **C91** (proved). Proved in exact arithmetic with an exact square root. For dependent columns the routine stops without a signal: with a zero first column nothing is done (proved in general).
* **C92** (partial). Proved in exact arithmetic with an exact square root, for whatever the convergence test takes for zero: orthonormal columns, the diagonal form with a bound, the order, the residuals of equations and inverses. The code: the iteration has no limit of passes, so the theorems are about runs that end (proved to end for two rows; convergence for more rows is not proved); the substitution writes to the first numbers whatever the column asked for, so with several right-hand sides the column keeps part of its right-hand side (proved in general).
* **C93** (partial). Proved in exact arithmetic with an exact square root: the reflections, the triangular matrix, the return value. The code: the substitution turns the right-hand side once more than the decomposition did and divides by s[n-1], that the decomposition never sets; whatever number is there, the result is wrong unless the last unknown is zero (proved in general).
* **C94** (partial). Proved in exact arithmetic: least squares and least length of the substitution, for any factors; the first part of the decomposition turns the matrix into one with two diagonals by orthogonal matrices, if the caller sets the singular values to zero before. The code: the decomposition reads one number after the end of its work array for every matrix with a row and a column, so that none of the routines built on it is defined (proved in general); singular values of zero columns are never set (proved for matrices of zeros). The whole routine is modelled with the number found there as an argument: whatever it is, for a matrix with at least as many rows as columns, if every value converges in its 30 passes and no cancellation goes on beyond one number, the factors have orthonormal columns, the singular values are not negative, and the product is the matrix but for the numbers tested to be small, with a bound; for a matrix with fewer rows than columns the same holds, with orthonormal rows of the left factor, whose columns times the singular values are orthogonal with these as lengths, up to such a bound; a cancellation of more than one number changes the matrix, as a factor is left out (proved in general); values that have not converged are given without a word. With such factors the routines for equations and inverses give the least squares solution of least length for the matrix without the singular values below the tolerance, and the solution and the inverse if there are none; the refinement changes nothing in exact arithmetic. With two columns the iteration always ends, after one pass or a cancellation, if nothing is neglected, and two equations with a regular matrix are solved. Missing: convergence with more than two columns.
* **C95** (partial). Proved for every error function: when the search ends, the point it settled on is the best of all points tried, all corners are within a hundred tolerances, the value returned is the distance moved, and the logarithms are the point brought between one and nine. The code: bringing the moduli between the bounds can make the error worse than at the start (witness); the search never ends if the error is not a number on one side of the start (proved in general for one layer), nor if the error falls with every increase of the modulus (proved in general for one layer).
* **C96** (partial). Proved in exact arithmetic for every input with a gradient for each deflection: descent, the minimum within one order of magnitude, bounds, conjugate unit directions, orthonormality of the matrix if the directions found and those kept are independent. The code: a step that is cut can be longer than one order of magnitude (witness; at most the square root of two, proved); if the directions found depend on those kept, one is lost and the matrix returned is singular (witness).
* **C97** (partial). Proved for a point load off the axis: Hooke's law, both equations of equilibrium, the free surface, and the total through every plane; on the axis, the stresses and the deflection are those of the load spread over the circle (the radial and tangential stress through their mean). The code: everywhere but on the axis the load is taken as a point, so that the deflection calculated on the surface inside the loaded circle exceeds any bound near the centre, where it is right (proved in general).
* **C98** (partial). Proved for every number of layers: the transformed depths, the results at them, the contributions of the layers below, continuity at interfaces, the single layer, and the same for the other method. The code: the equivalent thickness has one plus the square of Poisson's ratio where the bending stiffness has one minus it, so that the stiffness is kept only if the ratios are equal (proved in general); two layers of the same material deflect more than the half-space they are (proved in general for the centre of the load).
* **C99** (partial). Proved: what the integrands are, the end of the recursion, the static variables unchanged after each call, the axis, and the error in terms of the distance of the integrand to a polynomial of degree nine. Missing: the error in terms of the tolerance, which does not hold for any adaptive rule in general; the code compares the first estimate with the number ten, so that an estimate of ten is never refined (proved in general).

Other disagreements found by reading, not stated as properties: `ktree_avl::operator=` and the move assignment of
`list_owned` have no return; `list_double::remove` and `pop` name members that do not exist; the POSIX directory
code of the traffic library does not compile.
