# Formal model of L3STER: design

L3STER is a header-only C++23 least-squares spectral element library.  The model
covers its logic (index arithmetic, encoders, ownership bookkeeping, message
exchange, concurrency protocols, state machines) and its algebra in exact
arithmetic.  It is written in Lean 4.33 with single Mathlib modules.

## Conventions

* `lean/Verif/<Area>/Model.lean` holds the executable model. Every definition cites
  the file and lines of `/repo` it was read from and states its simplifications.
* `lean/Verif/<Area>/Spec.lean` (where more than a line is needed) holds an
  independent specification that does not use the model's helpers.
* `lean/Verif/<Area>/Lemmas.lean` holds auxiliary lemmas.
* `lean/Verif/<Area>/Props.lean` holds the property theorems, named after the
  property (`C01_...`), each followed by an `example` showing that its hypotheses
  are met by a concrete non-trivial case.
* A theorem with suffix `_partial` proves less than the property; its doc comment
  says what is missing. A theorem with suffix `_violated` is a proved negation: the
  code as written does not have the property, with a concrete witness.
* Out-of-range access, exceptions and other abnormal exits are distinct outcomes
  (`Option`/`Except`), never a default value.

## Trusted base

* The Lean kernel and the axioms `propext`, `Classical.choice`, `Quot.sound`.
  No own axioms, `sorry`, `native_decide` or `bv_decide`.
* Faithfulness of the reading of `/repo` recorded in the definition comments. The
  C++ code is not executed or parsed by any tool here.
* Floating point is modelled by exact arithmetic (a field or ordered field, `ℝ`
  or `ℚ`) unless stated otherwise; rounding is not modelled.
* Behaviour of the standard library (`std::sort`, `lower_bound`, ranges), MPI
  (reliable, non-overtaking point-to-point messages, correct collectives), TBB,
  Kokkos/Tpetra containers, Eigen kernels, METIS (arbitrary output), robin_hood
  maps (finite maps with arbitrary iteration order).
* Machine integers are unbounded `Nat`/`Int` unless the property concerns wrap-around.

## Properties: what is modelled and how it is proved

| id | model | method |
|---|---|---|
| C01 | byte lists; scalar loop, remainder, size formula | refinement to RFC 4648 bit-level decoder, induction on 3-byte groups |
| C02 | vector kernel on 32 lanes (shuffle, mulhi, mullo, offsets), alignment split | bit-vector identities per 3-byte group lifted over blocks; append lemma |
| C03 | prefix/rest split of field encoding | encoder append law at multiples of 3 bytes |
| C04 | word array with `resize` as written | refinement to a set of bits for histories that do not shrink; negation for shrink |
| C05 | atomic read-modify-write steps, interleavings as shuffles | commutation, induction over schedules |
| C06 | signed/unsigned widths | decision logic; negation for negative values into narrower signed types |
| C07 | universe of serialisable shapes, byte parser | structural induction, prefix rejection |
| C08 | sorted ghost list, lower_bound | inverse functions |
| C09 | list of per-rank counts, inclusive scan, upper_bound | uniqueness of owner; symmetry of neighbour relation |
| C10 | offsets/entries arrays; sorted-set insertion | indexing lemmas |
| C11 | explicit stack DFS with termination measure | invariant: visited closed up to stack; components = reachability classes |
| C12 | cells by rounding half away from zero | `|x-y|<dx` implies neighbouring cells |
| C13 | bounded list with error outcome | simulation; negation for erase result |
| C14 | double-buffer schedule | invariant over rounds |
| C15 | permutation by sort of indices, dedup, index map | list lemmas; negation for the array helper on unsorted input |
| C16 | generators over an ordered field | closed forms |
| C17 | stack of guards, running maximum | induction over histories |
| C18 | ownership state machine with destroy counters | invariant over all operations |
| C19 | guards with owning flag | invariant without move-assignment onto owner; negation with it |
| C20 | index tables for order parameter | arithmetic characterisation |
| C21 | find with range check, contiguous shortcut, binary search | correctness for strictly sorted ids; negation for unsorted |
| C22 | constructor node sets | correctness for gap-free numbering; negation with gap |
| C23 | side matching by sorted nodes | search lemmas |
| C24 | generators | arithmetic of lattice numbering |
| C25 | reorder loop with arbitrary choice function | permutation invariant |
| C26 | compressed node storage | round trip |
| C27 | partition by predicate; owned range from minimum and count | permutation lemma; negation for ownership |
| C28 | node assignment, claiming, renumbering | invariant + bijection |
| C29 | boundary assignment per domain | counting; negation for interfaces |
| C30 | condensation maps, in-place weights | inverse functions, loop invariant |
| C31 | node translation, id compaction | order-isomorphism counting lemmas |
| C32 | extrude loops | lattice arithmetic |
| C33 | swaps, normal sign | ring identities |
| C35 | file = header + offsets + blobs | round trip, independence of comment |
| C36 | positional writes by ranks | disjoint ranges, read-after-write |
| C37 | concatenation of parts | permutation; negation of lookup |
| C38 | old/new ownership composition | negation for ghosts; positive for owned and for order-preserving renumbering |
| C39 | per-rank counting, exscan, communication | global bijection |
| C40 | flatten, filter, sort, dedup | list lemmas |
| C41 | components and representative assignment | idempotence, class constancy |
| C42 | candidate search in the spatial table | completeness when tolerance < spacing; negations |
| C43 | rows/columns elimination | matrix algebra over a field |
| C44 | distributed minimum | exactly one when some dof exists; negation otherwise |
| C45 | gather/scatter operator | linear algebra, sums over elements |
| C46, C47 | global state of ranks, message matching | refinement to "copy from owner"/"fold of contributions" |
| C48 | counters, bit packing | injectivity within an object; negation across objects |
| C49, C50 | small-step interleaving semantics | inductive invariants |
| C51 | atomic slot reservation, sort/unique | invariant over interleavings; set characterisation |
| C52 | block matrices | Schur complement equivalence, sum over elements |
| C53 | index construction | correct for increasing lists; negation otherwise |
| C54, C55 | batch state machine | invariant; negation after abort |
| C56 | sweeps on flat buffers | index bijections and sum exchange |
| C57 | odd/even split | sum splitting by parity |
| C58 | point construction | negation for hexes; positive for quads |
| C59 | rounds of message exchange with send-time snapshot | average; negation for the constant overload |
| C60 | call-sequence automaton | invariant; negation for matrix-free |
| C61 | flat layout | injectivity, read-after-write |
| C62 | reduction of a prefix of the result | positive for one column; negation otherwise |
| C63–C66, C68 | polynomials as coefficient lists / sums over a field | Mathlib polynomial and Lagrange theory |
| C69–C71 | vectors over an ordered field / reals | ring identities, sign lemmas |
| C73 | sub-cell generator | lattice arithmetic |
| C74 | section list | prefix sums |
| C75 | attribute selection loop | negation; positive for at most one vector |
| C77 | sweep loop | positive for one sweep or beta=0; negation otherwise |
| C78 | solver object with cached arguments | positive for first call; negation for later ones |
| C79 | width tables, loops | decision logic, induction |
| C80 | slots with alive flag, construct/destroy/assign events | invariant for push-only histories; negation for pop/erase |
| C34 | conversion loop with neighbour matching; node locations of the real geometric maps | invariant "ids equal iff positions equal" over the visited elements; face calculus for the feature tables; gluing of trilinear maps |
| C76, C84 | byte-string paths with POSIX `stem`/`replace_extension` | decomposition lemmas; injectivity; negation for names differing after the last dot |
| C81, C82 | geometric maps and basis derivatives over the reals | derivatives of polynomial maps, inverse Jacobi matrix, partition of unity |
| C83 | positional writes into an existing file | disjoint cover lemma; negation for longer previous files |
| C85 | decision logic with an undefined outcome | case analysis |
| C86 | character-level reader: formatted input with fail/eof flags, unassigned variables, istream_iterator, keyword search | separation-logic style triples over the numbers of the text, composed section by section; negation for empty node blocks |
| C87 | same model, use of an unassigned variable is a separate outcome | corollary of C86 for well-formed texts; negation by concrete texts |
| C88 | NodeOrd: marking loop with its throw, count check, assembly of the result; element tables of Elem | fold lemma for the marking loop, counting argument for the check, membership characterised through the side tables |
| C89 | NodeOrd: the exact sequence of bit operations on the word-level bitset of C04/C05, window counts | refinement to sets (C04), window count (C05), injectivity of the position node*n+dof |
| C90 | UniVec: loops of at/find; relations for parallel visits and generalised sums | induction over the vectors; reductions as trees over a permutation of the operands; a non-neutral initial value is counted once per type, so the unrestricted statement is refuted |
| C91 | SumOp: evalQP/quadQP/hexQP (loop bodies), geometry by the back transform of the vertex coordinates, sumFactImpl, and stdUpd/updsQuad/updsHex for the standard path; on top of SumFact (sweeps), Batch (operator batching), Basis, Mapping, Quad | the back transform gives nodal sums (C56), the point map is the composition of the point operator with its transpose, the forward transform sums over the points; compared with C54. Hexahedra: only for kernels ignoring the third coordinate, since evalAtHexQPs passes 0 for it (violated otherwise) |
| C92 | StatInit: the twelve variables, the initialiser of each reading the memory, initialisation as a fold over an arbitrary order from zero memory | induction over the order: right for every order in which a matrix follows the one it is computed from; the language makes the initialisation of implicitly instantiated variable templates unordered, and then a transposed matrix may stay zero (C92_violated) |
| C93 | elements with their quadrature points, scatter into the assembled matrix and right-hand side in any order with summation over ranks, and the matrix-free application and right-hand side of C45 and C94; exact real arithmetic | normal equations of a list of weighted rows (expansion of the functional; solvability by duality), rows from points and equations, composition with C45, C54, C94; weights from C66 |
| C94 | zeroing, local right-hand side with constrained unknowns moved over, scatter in any order, export sum, stores of the constrained dofs | sum of additions per entry, sum over ghosts equals sum of the shares of the ranks; false for the diagonal if an element has a dof twice (periodic conditions across one element): counterexample |
| C95 | passes over columns, sizes of the buffers and all positions accessed | bounds of the index functions; false for kernels declared for fewer vectors, which defineOperator accepts (no requires clause): counterexample |
| C96 | `RobinHood`: the flat table with its slot array (slots dead/live/moved-from), info bytes with sentinel and padding, multiplier, increment and shift; every loop of the code as a recursive function with an explicit `ub` outcome for reads and writes outside the arrays, construction over a live object and use of a dead one, and an `overflow` outcome for the throw. | invariant (each key's info byte encodes its distance to its home slot, bytes along a run grow by at most one increment, one slot per key, slack of one increment while insertion is allowed) kept by every operation; closed forms of the shifting loops; refinement by induction over the calls; pigeonhole for the sharp bound. |
| C97 | `RobinHood`: `hashInt`, `mix` on 64-bit words. | xor-shift and odd multiplication are injective; the multiplier stays odd by the table invariant. |
| C98 | updateSolution of the assembled (no condensation) and matrix-free systems on one rank: index checks, local dof map, border accessor with 32-bit positions, interior/border split, stores in any order | all stores to one place carry the same value; interior elements read owned rows only; induction over the store list on top of the field store of C61 |
| C99 | constructor (inverted bitmaps, 8-bit counter, offsets, emplace), recovery loop with its lookup table, diagonal block as filled by the kernels | induction over elements; position k*size+lookup = place in condDofs; stores as in C98; a component in no kernel's list gives a zero row |
| C100 | the four matrices entry by entry (real arithmetic), modelled in Verif.Mapping | comparison with Rodrigues' formula and with multiplication by exp(i a); the planar function rotates by the opposite angle, proved as a violation for every angle with non-zero sine |
| C101 | parseMpiBuf and the arguments MpiComm passes to MPI, per element width; MPI routines by their standard semantics; errors and undefined behaviour as outcomes | element-level theorems for each operation by reasoning on aligned blocks of memory; scatter of non-built-in types, indivisible all-to-all, counts beyond int and the null output iterator proved to violate the property |
| C102 | owner objects of one kind by address, MPI handles by number; construction, asynchronous start, moves, destruction, wait, test, waitAll, waitAny; use of a handle already given back is a distinct outcome | invariant (held handles are distinct, live and cover all live handles) by induction over operations |
| C103 | order of the rule from the options with 8-bit conversions; rules, basis functions, jacobians and point updates of the existing models; expressions as an inductive class of products of values and derivatives | degree of each expression in each variable (multivariate polynomials) against the exactness of tensor rules (C66); two counterexamples on the reference square |
| C104 | the blocks in merging order as element calls with domain, nodes and vertices: geometric and linear distributions (C16), makeSquareMesh (C24), the ring, wake and corner deformations, the rotations; exact reals; merging itself is C31 | cross products of cell edges in closed form for ring, wake and corner, rotation invariance, telescoping sums for the areas, polar coordinates for the interfaces; ids by an exact characterisation of when a block can be built; refuted in general: correct() accepts r_inner <= 0 (degenerate or inverted cells) and a domain id of 1-4 makes the mesh throw although all six ids are distinct |
| C105 | definitions as a state changed by calls that may throw; marking, adding up at the owner and copying back in the assembled system; marking by side with the split into border and interior elements around the exchange in the matrix-free system | membership of every list is shown equivalent to a predicate over calls, elements and nodes; sums of zeros and ones for the export, ownership of interior elements for the early send; the absent component and the id of a volume domain are shown to break the full statement |
| C106 | result objects as memories whose scalars may be indeterminate; kernels as lists of assignments with the scalars they read; reading an indeterminate scalar is undefined | induction over the assignments: scalars with a value are those assigned; equation kernels proved in full, residual kernels proved to be defined iff the kernel assigns everything before reading, then equal to a zero start; the accumulating residual kernel is the counterexample |
| C107 | side rules, surface jacobian and normal (C24, C25), boundary and domain integrals of a nodal vector field on segments, quadrilaterals and hexahedra, over the reals | `C107_area_vector`: surface jacobian times normal is plus or minus a column of the cofactor matrix, for every matrix. Piola identity: the divergence of the cofactor field is zero, so jacobian times divergence is a sum of pure derivatives, integrated exactly along one axis (`C107_partial`). Segments and low orders refuted by witnesses. |
| C108 | ranks as processes over a common list of operations (rounds with given sources, rounds with a wildcard, collective operations), FIFO channels per sender, receiver and tag; completion of sends and release from collectives left to an arbitrary environment | inductive invariant (channel contents, received messages, collectives), progress from the rank furthest behind, decreasing measure (`C108_rounds`); the library's sequences satisfy its hypothesis (`C108_library`); without the collective in between a wildcard round goes wrong (`C108_unseparated`) |
| C109 | the updates of domain and boundary kernels from geometry, basis, quadrature and external fields (C66, C68, C70, C81, C82), assembled by the model of C93; one element dimension per problem, exact real arithmetic | interpolation reproduces the space (monomials through C68) and its derivatives within the element, also on the sides (uniqueness of derivatives on the cube and invertible Jacobi matrix), so residuals vanish; then C93 (`C109_exact`, `C109_matrix_free`); members of the space: `C109_linear`, `C109_affine`, `C109_box`, `C109_space_linear` |
| C110 | Lean/Verif/CVec: memory as blocks of cells holding objects or raw storage, freed blocks kept so that addresses are unique; each member function on it, every misuse of memory an explicit failure; programs as lists of operations on numbered vectors | refinement to lists by an invariant over all programs (each vector owns its block, no block without owner), loops in closed form; growth by induction on the appended list; `v.pushBack(v[k])` on a full vector reads freed memory (`C110_violated`), everything else is proved |
| C111 | Lean/Verif/RefStable: unique pointers over a heap of objects; the collection as the vector of C110 holding block addresses plus a heap of blocks; references as (block, offset); iterators as (base, index) | invariant that block i is the i-th block allocated and holds elements i*BS.. of the list, built on the lemmas of C110; ownership invariant for unique pointers; counterexamples for the leak in move assignment, the postfix operators and the moved-from collection |
| C112 | a run: numbering input of all ranks, new node numbers, elements of each rank, local and global dofs of elements as the maps of the rank give them (C39, C08), constrained dofs as C105 finds them, systems as in C93 | the functional of any run is the functional of the undistributed problem evaluated at the field the vector stands for; with C93 solving is minimising, so runs can be exchanged. False with periodic boundaries when a rank with an active element has the redirected node only as a ghost: number of unknowns changes with the rank count (witness) |
| C113 | `partitionImpl` (C28, C29), the numbering (C39), `permuteMesh` (C38), assembly and solution (C93, C112) composed; kernels on domains and (through the parents found by `makeBoundaryElementViews`, C23) on boundaries | the parts, however cut, form a run of the problem on the undistributed mesh, so C112 applies; negation by a mesh of four line elements on three ranks, two of which change places |
| C114 | Areas Pipeline (mesh to solution), SolUpd (updateSolution), Fields (manager and access) and Integral put together; kernel results are an arbitrary function of element, side and values read | values of the fields at every node of every element follow from C98 and the dof numbering of C39/C112; elements (and boundary views) of the parts are those of the mesh up to order and renumbering, so C62 applies; uniqueness gives equal values by C113 |
| C115 | condenseSystemImpl as loads and stores on the blocks of the element (indices from area Condense), tasks = elements of a domain kernel or boundary views of a boundary kernel, executions = interleavings | proved for domain kernels and for any calls in which no element occurs twice (`C115_domain_kernels`, `C115_assembly_partial`, `C115_boundary_partial`); data races characterised (`C115_races_iff`); false for boundary kernels if an element has two sides on the boundary (`C115_violated`) |
| C116 | problem with internal nodes (CondDistr/Model), the uncondensed problem and what the numbering sees, kernels scattered to primary dofs, blocks summed over kernels (C115), Schur complement updates, global sums over ranks, Dirichlet rows, recovery | the condensed rows are the rows of the whole system after substituting the recovered values (exact elimination), and C112 characterises the whole system by minimisation; invertibility by perturbing the minimiser inside one element; false for kernels listing components out of order |
| C117 | the whole way from the mesh to the solution with periodic boundaries: `BoundaryGroup` ordering and grouping by component, collection of boundary nodes on each rank, displacement, matching within the tolerance through the spatial hash map (C109), connected components (C41), numbering (C39), assembly and solution (C112) | matches are characterised exactly under the condition that displaced sources meet destinations exactly or not within the tolerance; the representatives then form the classes of images; the run satisfies the conditions of C112, whose theorem transfers solutions |
| C118 | the composition of the partitioner (C113), periodic matching (C117), numbering of boundary nodes only, condensation (C115, C116) and the solve: the setup of the numbering from elements' boundary nodes, the elements condensed on each rank, kernels merged per element, the field after recovery | the run on the parts is shown to meet the conditions of C116 with a problem read off the undistributed mesh: internal nodes belong to one element, hence to one rank; kernels of an element gather on its rank; the problem found is the same for every distribution up to order |
| C119 | `generateAndDistributeMesh` up to the partitioning: generator, then conversion unless the order is 1, on the models of C24 and C34; the mesh produced is an input of the models of C113, C116-C118 | elements of a structured mesh are boxes of a grid: their vertex ids determine them, their images meet in common faces (bounds of the multilinear map), so the hypotheses of C34 hold; a side of a converted element corresponds to a side of the original one because nodes at the same position have the same id; border boxes have one parent because the grid has one cell there |
| C120 | checkDomainDimension, the skipping of elements of another dimension in assembly, matrix-free systems and integrals; meshes and their distribution as in C113 | decision logic on one mesh; composition with the result of distribution (C113) for all ranks; counterexamples by evaluation |
| C121 | the whole path from a rank's part: boundary views, split into interior and border, both local views with their element order, kernel maps by domain, the visit of all domains, local dofs of the nodes of a view | views keep the multiset of elements (C25, C27), the sides of an element in its view are the sides of its boundary elements (one per side), both folds combine to a permutation of what assembly visits; composed with C112 and C113 for answers; false for domain kernels on boundary domains and for sides in two boundaries, with witnesses |
| C122 | expansion of METIS labels to all nodes (MfGen); conversion, partitioning, reordering, local views, matrix-free evaluation reused from C34, C28-C29, C113, C85, C121 | nodes inside elements of highest dimension belong to one element and get ids in one pass (induction over conversion); label of the element goes to each of them, hence they are owned by one rank and the order-preserving renumbering keeps them consecutive (Run by induction); composed with C119 and C121 |
| C123 | All six overloads of computeValuesAtNodes up to the values written: which elements and sides they visit, the dimension checks, how the overload for constants tells domains from boundaries; local views of split meshes | The views of a rank's two halves are related to its mesh (C121); visits are compared as lists up to order, ranks together by C113's distribution results. Constants on boundaries fail: complete case analysis (right, ignored, throws) and a counterexample on one rank |
| C124 | `AsmCall`, `MfCall`: the points of C123, the dof numbers of C39, averaging and communication of C59, on the parts of C113 | `C124_assembled`, `C124_matrix_free` refine both to `specCall` on the undistributed mesh: points of the ranks are a permutation of those of the mesh renumbered, contributions to a dof are those at its node, interior elements only touch owned dofs; sequences by induction; solutions by C113 |
| C125 | `StepRun`, `Run`: kernels get the values the rank's fields have at the element's nodes, prescribed values are made by the calls of C124, the system is assembled (C113) or evaluated (C121), fields are updated as in C98/C114 | `C125_step`, `C125_program`: the invariant `Carries` (fields on ranks represent one function on the nodes of the mesh, prescribed values likewise) is kept by steps of either kind and determines the next one; `C125_runs` with the solvability of normal equations (C93); `C125_can_run` by simulation; `C125_start` establishes the invariant |
| C126 | `Verif/When/Model.lean`: both systems as state machines over histories, fields being an optional value (none: destroyed), kernels functions of it, undefined behaviour a distinct outcome | induction over histories with a relation between the states (`Same`); the times at which each kind reads are proved for arbitrary changes; three concrete witnesses refute the full statement |
| C127 | `Verif/ExtGen/Model.lean`: `extrude` of area Extrude with the coordinates the new elements carry, followed by the conversion of C119 | every element of the extruded mesh is an element of the plane with a layer or a level (`sources`); sides, gluings and coordinates of pairs of elements are traced to those of their sources, then C119 and C122; instantiated with every square of C119 |
| C128 | `Verif/MergeGen/Model.lean`: `merge` with the search of common nodes by position (bounding box, spatial hash table, tolerance), squares as meshes with positions | invariant (`Merged`) by induction over the merges: cells of the result in terms of cells of the inputs, at the level of positions; matching by C12; C31 for what is deleted; the tolerance is refuted both ways by a flat mesh |
| C129 | `Verif/MergeGen/CylModel.lean`: the blocks of C104 made meshes and merged in the order of the code, then extruded | regions of the plane occupied by the blocks meet in arcs and rays only; points on these are grid points of both blocks, so the blocks fit (`SqFit`) and C128 applies; boundaries by C104; extruded by C127; ids by the failure of one block |
| C130 | `Verif/ArrOwn/Model.lean`: all constructors, implicit moves, accesses, comparisons and destruction; undefined behaviour and exceptions are outcomes | refinement of lists by induction over programs; refuted for arrays that were moved from (size stays, checked access dereferences null), made from single-pass ranges (nothing is copied) and made with an explicit alignment (wrong deallocation function) |
| C131 | `Verif/WeakC/Model.lean`: the map of weak pointers and the shared pointers of a program | invariant by induction over programs; the last two clauses are refuted and the last is proved for programs that put in objects only if they get none |
| C132 | `Verif/CrsFill/Model.lean`: column ownership, maps, row sizes, local indices and insertion with capacities; local graphs and the exchange from C51; ownership from C08, C09; index map from C15 | the map of local to global indices is a list without repetition in which getLocalIndex and the index map find positions; sizes by induction over the rows received; entries by C51 |
| C133 | `Verif/Restart/Model.lean`: parts handed to save, the mesh read, the distribution with its tables of old numbers (one rank, partitioned, reordered), the loader; files from C35-C37, partitioning from C29, programs from C113 | the mesh read is the original one with nodes renamed; a distribution of a renamed mesh is one of the mesh; old numbers by the inverted node map; then C36, C112; negation for arbitrary reordering by computation |
| C134 | `Verif/Lookup`: `findId` of C31 on the parts made by `distribute`, `partitionImpl` and outcomes of C29/C112; meshes of C119; files of C133 | parts' vectors are sublists of the mesh's; guard by first and last id passes over boundaries when ids lie apart; generated meshes number domain elements first; negations for interleaved ids, boundary elements and restarts by computation |
| C135 | `Verif/Resume`: programs of C125 before and after a restart of C133, eight bytes standing for a number | the redistributed mesh is a distribution of the original one with composed numbers, so steps on it represent the same problems; induction over steps with the set of systems whose prescribed values are known to agree; then induction over the stops; negation by a program which prescribes once and is stopped |
| C136 | `Verif/Topo`: `populate` and the counts over any cores and nodes; hwloc's queries by their documentation | double count exchanged: each core as often as there are nodes with all its units; one where nodes are disjoint; guards by C17; negation by two nodes near the same cores |
| C137 | `Verif/Folded` on the local systems of `Verif/Patch` (whose points are refused by the code's check), rules of C66, jacobian of C81 | jacobian of a quadrilateral is linear, so its sign follows from corners; mirror image changes the sign of a column; points lie strictly inside, so a wedge turned over behind the last point passes, for every order |
| C138 | `Verif/Entry` on `Verif/Partition` and the weights of `Verif/NodeOrd`; refusal, other failure and return are distinct outcomes | the check by cases; parts by the ownership of parts proved for C28 and C29; witness: two quadrilaterals whose common nodes go to the first part |
| C139 | exporter with its queue of started writes, each knowing where its bytes are (payload, version of the coordinates, topology), events for MPI carrying out a write at any time, waiting calls, destruction, exceptions (`Verif/ExpRun/Model.lean`) | invariant by induction over events: every byte of every file is either what sequential writing leaves or covered by an outstanding write that agrees with it; refinement of the program that writes each document at its call (`C139_files`), independence of the schedule, progress. Exactness fails for a shorter document under the same name (no truncation), and an export that throws for a bad group of components has already replaced the parallel file; both are shown by witnesses |
| C140 | the communication rounds of C108 with ranks that leave the common sequence before one of its operations; the generator is called on the first rank after `gatherNodeThroughputs` (`Verif/RankThrow/Model.lean`). What a rank does after it has thrown is not modelled, other than that it does not communicate | invariant of C108 carried over; progress of the ranks behind the first exception; ranks which need a message of the one that threw never get past (`C140_hang`), so the full statement is false for every program with such a call and more than one rank (`C140_violated`); it holds where all ranks throw alike (`C140_all_partial`) |
| C141 | composition of the models of reading (C33, C86) and distribution (C113); requirements are stated on the file, with the sides of elements in Gmsh's numbering (`Verif/GmshGen/Spec.lean`); reading followed by conversion to order `n - 1` in `Verif/GmshGen/Model.lean` | sides of arranged elements are matched with Gmsh's sides by a table for each of the three arrangements, lifted to all nodes; parents and their uniqueness are carried from the file to the mesh; then C113. For any order: nodes of the file have one position each, so the mesh is one to which C119_conversion applies when the geometry is valid (no folded elements, elements meet in common faces only, nodes farther apart than the tolerance; as in C34). From the text of the file the theorem has the hypothesis of C86 that no block of nodes is empty |
| C142 | subranges as leaves of any tree of splits; each runs its loop in two kinds of steps (call of the kernel, store of the result) on a shared memory; any interleaving (`Verif/ParFor/Model.lean`). Assumed: what oneTBB promises (the leaves cover the range without overlap, each is run at most once and, without exceptions, all are), kernels which use their argument only, stores which are not torn. Not modelled: the overload for ranges without random access | an invariant of all reachable states: per subrange, stored elements are final, the others untouched, pending results belong to the old argument; calls and stores so far are counted without repetition, which also bounds the number of steps; a schedule pair with different results for a shifted output |
| C143 | `isUnpartitioned`, `computeMeshDual` on top of the model of lookup by id (C21), reading of the returned arrays with the bounds of the spans (`Verif/Dual/Model.lean`). METIS is any function keeping its promise for valid input (`Verif/Dual/Spec.lean`). Not modelled: copies of `GraphWrapper`, allocation | the arrays have a closed form by induction over the ids, segments are the nodes of the elements; lookup by C21_find_id_partial; with C119_conversion the assumption on the graph in the conversion is replaced by the code which computes it, and generated grids of any size satisfy all assumptions (`Verif/Dual/Grid.lean`). The full statement is false for a mesh without nodes, and for a mesh with one node more than the greatest `idx_t` |

Runtime effects that no executable model here can exhibit (memory ordering beyond
sequentially consistent atomics, performance, rounding, third-party internals)
are outside the model and named in the notes of `MANIFEST.json`.

## Axioms

Every property theorem depends on a subset of `propext`, `Classical.choice`, `Quot.sound`
(checked with `#print axioms` for all theorems named in `MANIFEST.json`); no theorem depends on any other axiom.

## What is modelled

Paths relative to `/repo/include/l3ster`.

| directory | modelled | not modelled |
|---|---|---|
| `util` | Base64 (scalar and AVX2), DynamicBitset, IndexMap/Algorithm helpers, CrsGraph, SpatialHashTable, StaticVector, ScopeGuards, SetStackSize, Serialization, SegmentedOwnership, TypeErasedOverload, integer helpers, staggered all-gather | Caliper/profiling, simd wrappers, console output, Tpetra adaptors |
| `math` | polynomials, Lagrange interpolation, Legendre and Lobatto points, integer maths, rotations used by side mappings | the eigenvalue solvers themselves (contract) |
| `quad`, `basisfun`, `mapping` | Gauss-Legendre rules, nodal bases, Jacobi matrices, normals, side maps, surface measures | caching of tables |
| `mesh` | element traits, domains, find, boundary views, primitives, extrusion, merging, partitioning pre/post-processing, local views, splitting, native and Gmsh I/O (text), redistribution | METIS, conversion of decimal fractions |
| `comm` | import/export of nodal values, tags, receive polling, distributed reductions | MPI implementation |
| `dofs` | numbering, periodic groups and matching, node-to-dof maps, sparsity graph | Tpetra graph storage |
| `bcs`, `algsys` | Dirichlet elimination, matrix-free operator, static condensation, batched least-squares assembly, sum factorisation, constants/kernels as nodal values, session states | Kokkos spaces, Eigen expression templates |
| `post` | field storage, integrals, norms, VTK documents (connectivity, headers, file names, file contents) | XML escaping rules beyond quotation marks, directory creation |
| `solve` | native preconditioners, preconditioner selection, life cycle of solver objects | Amesos2, Belos, Ifpack2 (contracts) |

## Defects established by proof

Each is a theorem with suffix `_violated` (or an exact characterisation) about the model of the code as written.

* C02 `C02_alignment_pass_violated`: the alignment pass of the vectorised encoder misses the 4-byte boundary for offsets 1 and 2 (output unaffected).
* C04: shrinking a bitset keeps stale bits of the last word; growing again makes them visible.
* C06: the checked integer cast rejects negative values when narrowing to a signed type.
* C13: `StaticVector::erase` returns a wrong iterator. C80: `pop_back`/`erase` destroy elements that are later assigned to or destroyed again.
* C15: the array deduplication helper requires sorted input, which nothing checks.
* C17: a parallelism guard can raise OpenMP's thread count above the user's setting. C19: move assignment onto an owning guard finalises twice or never.
* C18: `operator bool` stays true after a move.
* C21, C37: lookup by id returns nothing or the wrong element when an element vector is not sorted by id, e.g. in a mesh loaded as a whole from a partitioned file.
* C22: derived node ownership is wrong when node ids have gaps. C27: the same after splitting.
* C26: a side on two boundaries keeps only the last id. C29: a boundary between two domains makes partitioning throw.
* C34: an element occurring twice (a face in two boundary domains) is converted with separate nodes; locations are matched with an absolute tolerance of 1e-12, a missing match is an out-of-range access.
* C38: ghost ids are sorted before being matched by position, so ranks disagree about redistributed nodes.
* C39: a periodic node active only on a ghosting rank does not activate its representative.
* C42: flat boundaries with the default tolerance miss partners; unmatched source nodes are ignored silently.
* C44: the assembled system pins a non-existent dof when no rank has the component; the matrix-free constructor may throw although one exists. C43: a constrained row without stored diagonal is undefined.
* C48: message tags of two objects collide when their creation numbers agree modulo 256, and across scalar types always.
* C53: condensation with unsorted dof-index lists puts entries into wrong rows.
* C55: pending batch columns survive an exception and pollute the next element.
* C58: kernels on sum-factorised hexahedra always see z = 0.
* C59: setting constants on a matrix-free system posts contribution counts before they are set.
* C60: the matrix-free system accepts contributions after `endAssembly`.
* C61: out-of-range fields are undefined behaviour instead of an exception in several accessors.
* C62: integrals with several right-hand sides communicate only the first column.
* C71: boundary integrals over end points of one-dimensional domains vanish.
* C73 `C73_offset_wraps`: VTK offsets wrap beyond 2^32 connectivity entries per rank.
* C75: with two leading vector fields the parallel header declares the second as active scalars.
* C77: native preconditioners with two or more sweeps violate the operator contract for beta != 0.
* C78: a solver object keeps solving the system of its first call, also after that call was refused.
* C83: exported files are not truncated. C84: names differing only after the last dot overwrite each other.
* C85: a matrix-based preconditioner with a matrix-free system is undefined behaviour.
* C86: an empty node block in a Gmsh file swallows the first number of the next block header. C87: failed reads are not checked, so physical tags above 65535 or a truncated node section end in undefined behaviour.
* C90: `UniVector::transformReduce` uses the initial value once per element type and once more; a non-neutral initial value is counted several times.
* C91: `evalAtHexQPs` (SumFactorization.hpp) builds the space point of a quadrature point of a hexahedron with third coordinate 0, so a domain kernel which uses z gives a different operator when sum factorisation is selected (`C91_hex_violated`).
* C92: the matrices of SumFactorization.hpp 58-65 and 142-157 are variable templates initialised from each other; the dynamic initialisation of their implicit instantiations is unordered, so `interpolation_matrix_trans` (and all `psi_*_forward`) may be computed from a matrix which is still zero (`C92_violated`, `C92_zero`).
* C94: the diagonal of a matrix-free system misses the off-diagonal local entries of elements that contain the same dof twice, as happens with periodic conditions across a single layer of elements; preconditioners get a wrong diagonal.
* C95: defineOperator() accepts kernels declared for fewer right-hand sides than the system (the requires clause of assembleProblem and initProblem is missing); applying the operator then writes outside the element-local buffers.
* C96: std::overflow_error is thrown by insert as soon as 128 keys share a hash value, however small the table; when it is thrown from insert_move inside rehashPowerOfTwo the new arrays are already installed, so the elements not yet moved are lost. `C96_equal_hashes_throw` proves the first part; the second is not modelled.
* C98: updateSolution accepts a destination list naming a field twice; the parallel stores then race and the outcome depends on the schedule. BorderAccessor computes col*stride+row in local_dof_t (int32): with two right-hand sides and 2^30+1 owned dofs per rank the position overflows.
* C99: StaticCondensationManager takes the components valid at all boundary nodes of an element for its internal ones. A single element of one domain surrounded by another domain gets the other domain's component, no kernel ever assembles it, diag_block is singular (zero row) and inverse() yields inf/NaN. The same zero block arises for every element of a domain in the ProblemDefinition on which no kernel is assembled. The loop for (std::uint8_t i = 0; i != bmp.size(); ++i) does not end with 256 or more dofs per node.
* C100: makeRotationMatrix2D (math/RotationMatrix.hpp:65-76) has the signs of the sines exchanged: it rotates clockwise, opposite to makeRotationMatrix3DZ and to the mathematical convention.
* C101: MpiComm::scatter (comm/MpiComm.hpp:477-488) passes the number of elements of the output span as the receive count although for types without a built-in MPI datatype the count is in bytes, so every scatter of such types is erroneous.
* C101: MpiComm::allToAllAsync (comm/MpiComm.hpp:532-549) does not check that the buffer size is a multiple of the number of ranks: trailing elements are silently dropped and, for non-built-in types, elements are torn.
* C101: parseMpiBuf (comm/MpiComm.hpp:79-100) converts the size to int without a check; buffers of a multiple of 2^32 units are silently not communicated.
* C101: gatherNodeThroughputs passes a null output pointer on all ranks but the root (comm/GatherNodeThroughputs.hpp:30), and MpiComm::gather dereferences it to take its address (comm/MpiComm.hpp:465).
* C103: AssemblyOptions::order counts a derivative as degree EO-1, but on quadrilaterals and hexahedra a derivative keeps degree EO in the other directions. With value_order = 1, derivative_order = 1 on elements of order 1 (examples/07-karman-2D) local systems are under-integrated; with only derivatives (0, 2) on order 1 the integrand y^2 is integrated as zero.
* C104: CylinderInChannel2DGeometry::correct does not ask for r_inner > 0 (zero: cells with vanishing jacobian; negative: inverted cells). The interface edges of the blocks keep the default ids 1-4 of SquareMeshIds, so choosing 1, 2, 3 or 4 for the domain throws (elements of different dimension in one domain) although all six ids are distinct.
* C105: `getDirichletDofs` (GetDirichletDofs.hpp 63-64) passes every named component of every boundary node to `replaceGlobalValue`, also `invalid_global_dof` for components that do not exist there; `LocalDirichletBC` filters them. The default argument of `defineDirichlet` (all dofs) is therefore usable in the assembled system only where all components exist (`C105_absent_component`, `C105_absent_component_violated`).
* C105: an id of a volume domain passed to `defineDirichlet` constrains all its nodes in the assembled system and none in the matrix-free system (`C105_volume_violated`).
* C106: residual kernels are passed `Rhs{}` (KernelInterface.hpp 150, 169), whose coefficients Eigen leaves indeterminate, while equation kernels are passed zeros; a residual kernel that uses += or leaves a component alone reads indeterminate memory (`C106_residual_violated`). `initResidualKernelResult` exists but the wrappers do not use it.
* C107: boundary integrals over the end points of segments are always 0 (`C107_line_zero`), so for 1D problems a flux does not balance its divergence (`C107_violated`).
* C107: with value_order 0 and derivative_order 1 the order chosen for order-2 elements uses one point; on a trapezium the flux of (x^2, 0) is 1 and the integral of its divergence 0 (`C107_order_violated`).
* C109: boundary kernels are evaluated without the jacobian check domain kernels have; on a side where the Jacobi matrix is singular the physical derivatives are undefined (hypothesis `sides` of `Assembles`).
* C110: `ConstexprVector::emplaceBack`/`pushBack` with a reference to an element of the same, full vector reads freed memory (`grow` deallocates the old block before the new element is constructed). Copy assignment calls a member `create` that does not exist.
* C111: `ConstexprUniquePtr` move assignment drops the old object without freeing it; `Iterator::operator++(int)` and `--(int)` are const, return the neighbouring position and do not move the iterator; a moved-from `ConstexprRefStableCollection` keeps `m_size` while having no blocks.
* C112: with periodic boundaries the number of unknowns can depend on the number of ranks: a rank which has a redirected node only as a ghost marks the node itself, not its representative (PeriodicBC::lookup knows owned nodes only), and the owner then drops the mark; the representative gets no number unless another element activates it.
* C113: with `optimize = true`, exchanging two ranks can attach elements of a third rank to the wrong nodes (C38), so that the same problem on the same mesh gets another number of unknowns.
* C115: With static condensation, boundary kernels race: visitBoundaries runs over the sides in parallel (AssembleGlobalSystem.hpp 95, MeshPartition.hpp 365-369) and condenseSystemImpl adds to diag_block, rhs and upper_block of the element with plain += (StaticCondensationManager.hpp 385-406). An element with two sides on the boundaries of the kernel (any corner) may lose an addition, so the condensed system is silently wrong. The same happens for a domain kernel if a domain id is listed twice. Without condensation the additions are atomic.
* C116: with static condensation a kernel listing field components in decreasing order gives a wrong solution without any error: the primary part is scattered in the kernel's order, the internal part in increasing order, so the recovered internal components are exchanged (StaticCondensationManager.hpp 482-535).
* C117: if a component with a periodic condition is active in some domains only, a node of such a domain owned by a rank which holds no element of the domain loses its dof: the rank holding the element marks the node itself rather than its representative, and the owner, which would redirect, marks nothing (NodeToDofMap.hpp 178-208). Unknowns at that node and at its images have no number; three quadrilaterals on two ranks show it (C117_violated). On one rank the same mesh works.
* C118: with static condensation, Dirichlet dofs are looked up for all nodes of an element, internal ones included (GetDirichletDofs.hpp 60, `element.nodes`), although internal nodes have no numbers. A Dirichlet condition on a volume domain therefore hands invalid dofs to the vector it builds. The theorems are about conditions on boundaries.
* C120: checkDomainDimension is decided rank by rank: a rank without elements of the domain goes on into collective operations while the others throw; MatrixFreeSystem and computeIntegral do not check at all, a kernel of the wrong dimension is silently applied to nothing.
* C121: the assembled and the matrix-free system do not treat all programs alike. LocalMeshView leaves boundary domains out, so a domain kernel applied to a boundary domain (an ordinary domain for the assembled system) is never evaluated and nothing is reported; and a local element view keeps one boundary id per side, so if two boundaries contain the same side, kernels run for one of them only.
* C122: a domain of lower dimension that is not registered as a boundary (say an edge with its own equations) makes the constructor of MatrixFreeSystem throw at order 3 and above, even on one rank, because the nodes inside its elements lie on sides of larger elements and are not numbered consecutively; the assembled system works on the same mesh (C122_lower_domain_violated).
* C123: setting a constant on a boundary in a matrix-free system does nothing on one rank (ComputeValuesAtNodes.hpp 255-266): `getMaxDim` of the empty border view is `invalid_dim` (255), which becomes the largest dimension, every id counts as having it, the ids are taken for domains, and boundaries are not domains of a local view. On several ranks it throws 'Cannot mix domain and boundary IDs' unless a listed boundary touches both interior and border elements of the rank; a rank with both kinds of elements but none in the listed domains throws as well, while others go on to communicate. Kernels (which is what the repository's tests use) are fine.
* C126: a matrix-free system stores a copy of `FieldAccess` (a pointer into the solution manager) in the kernels it keeps and reads fields at `endAssembly` (right-hand side, diagonal) and at each application of the operator; changing fields after `assembleProblem` (harmless with an assembled system) gives an operator and right-hand side of different fields, and destroying the manager before the solve is a use after free.
* C128: `merge` compares positions with the absolute tolerance 1e-12, whatever the size of the mesh: different nodes of a small mesh are matched (`C128_place_violated`), and on flat meshes the grid has steps of 256 ε across the plane, so nodes within the tolerance are not found (`C128_find_violated`).
* C129: the cylinder meshes give edges between blocks the ids 1-4, so they cannot be made when the domain id is one of 1, 2, 3, 4 although all ids are different (`C129_violated`); `C129_ids_partial` shows these are the only ids that fail.
* C130: ArrayOwner (util/ArrayOwner.hpp) declares no move operations, so a moved-from array keeps its size with null data: at(i) passes its check and dereferences null; the range constructor accepts single-pass ranges, which std::ranges::distance (88) exhausts, so that no element is written; memory from new(align) (28) is freed by plain delete[].
* C131: WeakCache::contains (util/WeakCache.hpp 16) is true for expired entries, for which get returns null; entries are never erased.
* C133: a mesh loaded on ranks which are then reordered (`optimize`) may attach elements to wrong nodes, as in C38 and C113; without reordering a restart is exact. Static condensation after a restart looks elements up by id, which C37 shows to fail on meshes read as a whole.
* C134: element lookup by id (MeshPartition.hpp 221-259) needs each vector of elements sorted by id. Boundary elements are inserted by threads in any order, so they may not be found; when their ids surround those of other elements (possible in meshes read from files) the lookup of a domain element may return a boundary element. After saving on several ranks and loading, elements of a domain come rank by rank; static condensation, which looks elements up by id (StaticCondensationManager.hpp 332, 431), then throws on a valid mesh.
* C135: values given by setDirichletBCValues live only in the algebraic system; neither save nor the loader knows of them, and a system made anew prescribes zeros.  A program which sets steady boundary values once, before its time loop, and is restarted inside the loop goes on with zero boundary values unless it sets them again.
* C136: Topology::populate lists for each NUMA node the cores inside its CPU set and the counts add these up, so on machines where two nodes are near the same cores (high-bandwidth beside ordinary memory, memory expanders) cores and threads are counted twice and assembly is not limited to one thread per core; and where hwloc knows of no cores the count is zero, which makes the recorded limit zero and every MaxParallelismGuard without effect.
* C137: with a one-point rule hexahedra of negative volume are assembled (`C137_volume_violated`).
* C137: the check of the jacobian is made at the quadrature points only, so for every order of the rule some quadrilateral two of whose corners are turned over is assembled without complaint; integrals (Integral.hpp 23-26), boundary kernels and the sum-factorised operator (SumFactorization.hpp 649-667, 716-745) do not check at all, so the integral of one over a mirrored mesh is its area with the wrong sign.
* C138: `assertUnpartitionedMesh` lets the first part which owns nodes pass if the partitioner gave it all nodes common with others (`C138_parts_violated`), reads `back()` of an empty range for parts without nodes, and does not see missing node numbers (`C138_gap_violated`). MeshTests.cpp 237-239 expects every part to be refused.
* C139: `PvtuExporter::exportSolution` checks the number of components of a group of fields only while encoding, after the parallel file has been sent on its way: a call which throws there has replaced the parallel file on rank 0 and written no piece file. Exporting a shorter document under a name used before (fewer fields) leaves the end of the longer one behind the new document, also within one program.
* C140: the mesh generator runs on the first rank only, after a collective call and outside any error handling (DistributeMesh.hpp 242-243, 269-271). If it throws there (file not found, unsupported element, a node without element), the other ranks wait for their part in `MPI_Probe` forever; the exception reaches the user only on the first rank, where `~MpiScopeGuard` then waits in `MPI_Finalize` if the exception is caught.
* C143: `computeMeshDual` (MeshUtils.hpp 48, 54) accepts a mesh without nodes as unpartitioned and then takes `owned().back()` of an empty view, which is undefined. (With an unchecked `iota_view` the value is 2^64 - 1, and the mesh is reported as too large for METIS.)
* C143: `computeMeshDual` compares the greatest node id (MeshUtils.hpp 54-55), not the number of nodes, with the greatest `idx_t`. A mesh with one node more than that passes, and line 84 turns the number of nodes negative before it is given to METIS (C143_overflow).

Observations made while reading, not stated as theorems: `requestStackSize` does not odr-use the static
member that performs the request; `Polynomial::operator*`/`+` use nonexistent members and cannot be
instantiated; `computeNormL2` does not compile for several right-hand sides; `intDivRoundUp` is wrong
for negative numerators; the post-increment of `ConstexprRefStableCollection::Iterator` does not modify;
`tryReceive` before any `postComms` returns true; the sum-factorised path does not check for degenerate
elements; `Ifpack2Ilut` passes its level of fill under the ILU(k) key.

## How to read `seeded/LOG.jsonl`

Each line is one wrong program: a definition of the model was changed in a copy and the properties depending on it
were built again. `failed` lists the properties which were no longer accepted: their own proof stops, or they use a
lemma or property whose proof stops, or their module imports one which no longer compiles. A proof which stops does
not show that its statement became false; the claim of each line is about the statement named in `breaks`, and where
only some of the listed properties become false this is said there if it was noticed.
