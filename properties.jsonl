{"id": "C01", "title": "Base64 encoding is lossless and has the announced length", "statement": "For every byte buffer, encodeAsBase64 writes exactly getBase64EncodingSize characters, all from the RFC 4648 alphabet plus '=' padding, and decoding them with an independent RFC 4648 decoder yields the buffer back.", "quantifier": "all byte strings of all lengths", "why_tests_cant": "infinitely many buffers; tests only sample lengths and contents", "anchors": ["include/l3ster/util/Base64.hpp: encodeAsBase64, encB64SerialImpl, encB64Remainder, getBase64EncodingSize, conversion_table"]}
{"id": "C02", "title": "Base64 output does not depend on the code path", "statement": "The text produced is the same whether blocks go through the vectorised kernel or the scalar one, and whatever the memory alignment of the input buffer is.", "quantifier": "all byte strings, all buffer alignments, both build variants", "why_tests_cant": "each (length, alignment, build variant) combination is a different split of the work", "anchors": ["include/l3ster/util/Base64.hpp: encB64SimdImpl, alignForSimd, encodeAsBase64"]}
{"id": "C03", "title": "A VTK field is encoded as one base64 stream", "statement": "The data section written for a scalar or vector field is the base64 encoding of the 8-byte byte-count header followed by all values (2D vectors padded with 0), although the code encodes a prefix and the rest separately; decoding it returns header and values.", "quantifier": "all numbers of nodes and all values", "why_tests_cant": "prefix/rest split behaves differently for 0, 1, 2 and many values", "anchors": ["include/l3ster/post/VtkExport.hpp: encodeFieldImpl", "include/l3ster/util/Base64.hpp"]}
{"id": "C04", "title": "DynamicBitset behaves like a set of indices", "statement": "After any sequence of construct/resize/set/reset/flip/assign/clear, test(i) and count() agree with an abstract set of in-range indices; positions that become valid again after a shrink read as unset.", "quantifier": "all sequences of operations with in-range positions, all sizes", "why_tests_cant": "histories are unbounded; stale bits only show after specific shrink/regrow histories", "anchors": ["include/l3ster/util/DynamicBitset.hpp: DynamicBitset, resize, count, SubView"]}
{"id": "C05", "title": "Concurrent atomic bitset updates are schedule independent", "statement": "When several threads set bits through the atomic view, the final content equals the union of all requested bits for every interleaving, and no update is lost; sub-view counts equal the number of set bits in the window.", "quantifier": "all thread counts, all programs of set operations, all interleavings; all windows", "why_tests_cant": "schedules cannot be enumerated by tests", "anchors": ["include/l3ster/util/DynamicBitset.hpp: AtomicView, SubView::count"]}
{"id": "C06", "title": "exactIntegerCast preserves the value or throws", "statement": "Casting an integer to another integer type returns the same mathematical value when it is representable in the target and throws otherwise.", "quantifier": "all source/target widths and signednesses, all values", "why_tests_cant": "the value space is huge and one sign/width combination differs", "anchors": ["include/l3ster/util/Common.hpp: exactIntegerCast"]}
{"id": "C07", "title": "Serialization round-trips and detects truncation", "statement": "Deserialising the bytes of a serialised value (integers, ranges, nested ranges, tuples, meshes) returns that value and consumes exactly its bytes; any proper prefix of the bytes is rejected with an error rather than read past the end.", "quantifier": "all values of all supported shapes, all truncation points", "why_tests_cant": "unbounded nesting and lengths; truncation points are as many as bytes", "anchors": ["include/l3ster/util/Serialization.hpp: Serializer, Deserializer, serialize, deserialize"]}
{"id": "C08", "title": "Local and global numbering of segmented ownership are inverse", "statement": "For a rank's owned range and its ghost set, getLocalIndex and getGlobalIndex are mutually inverse between the known global ids and [0, localSize()), owned ids first; ghosts that are also owned are rejected.", "quantifier": "all owned ranges and all duplicate-free ghost sets", "why_tests_cant": "depends on arbitrary ghost sets and order of insertion", "anchors": ["include/l3ster/util/SegmentedOwnership.hpp: SegmentedOwnership, getLocalIndex, getGlobalIndex"]}
{"id": "C09", "title": "Owner lookup and neighbour lists are globally consistent", "statement": "Given the per-rank owned counts, every ghost id is attributed to the unique rank whose range contains it, and rank a lists id i as needed from b exactly if b lists i as required by a, in the same order.", "quantifier": "all communicator sizes, all distributions (including empty ranks), all ghost sets", "why_tests_cant": "cross-rank consistency over all distributions", "anchors": ["include/l3ster/util/SegmentedOwnership.hpp: getOwnershipDist, computeOutNbrInfo, computeInNbrInfo"]}
{"id": "C10", "title": "CRS graphs return exactly the rows they were built from", "statement": "Row i of a graph built from row lengths/entries is the i-th list; makeCrsGraph yields, for each vertex, the sorted duplicate-free set of neighbours (symmetric for undirected input); out-of-range access throws.", "quantifier": "all edge lists and row counts", "why_tests_cant": "all graphs", "anchors": ["include/l3ster/util/CrsGraph.hpp: CrsGraph", "include/l3ster/util/Algorithm.hpp: makeCrsGraph"]}
{"id": "C11", "title": "Connected components are correct", "statement": "getComponentsUndirected returns duplicate-free classes that partition the vertices, two vertices being in the same class exactly if a path of edges joins them; depth-first search visits each reachable vertex exactly once.", "quantifier": "all finite graphs", "why_tests_cant": "all graph topologies; termination and completeness need induction", "anchors": ["include/l3ster/util/Algorithm.hpp: depthFirstSearch, getComponentsUndirected"]}
{"id": "C12", "title": "Spatial hash proximity query misses nothing close", "statement": "proximate(p) returns every stored point whose distance to p is below the grid spacing in each coordinate, whatever the origin, sign and rounding cell, each stored point at most once, and nothing that was not inserted.", "quantifier": "all point sets, spacings, origins, query points (exact arithmetic)", "why_tests_cant": "real-valued inputs; failures sit on cell borders", "anchors": ["include/l3ster/util/SpatialHashTable.hpp: SpatialHashTable, snapToGrid, proximate"]}
{"id": "C13", "title": "StaticVector behaves like a bounded list", "statement": "Any sequence of push_back/pop_back/erase/clear acts as on a list; push_back on a full vector throws and changes nothing; erase(first,last) returns the position of the element after the removed ones.", "quantifier": "all capacities, contents and operation sequences", "why_tests_cant": "unbounded histories; the erase result matters only to particular callers", "anchors": ["include/l3ster/util/StaticVector.hpp: StaticVector"]}
{"id": "C14", "title": "Staggered all-gather delivers every rank's message once, in order", "statement": "On each rank the process callback is invoked exactly once per rank, in rank order, with that rank's data, although two buffers are reused while the next broadcast is in flight.", "quantifier": "all communicator sizes, all message contents and completion timings", "why_tests_cant": "buffer reuse errors depend on timing", "anchors": ["include/l3ster/util/Algorithm.hpp: staggeredAllGather"]}
{"id": "C15", "title": "Sorting permutation and index-map helpers", "statement": "sortingPermutation returns a permutation that sorts the range and copyPermuted applies it; IndexMap maps each key to the position of its first occurrence; sortRemoveDup keeps exactly the distinct values in increasing order; a 'sorted unique' array helper returns the distinct values.", "quantifier": "all ranges", "why_tests_cant": "all inputs incl. unsorted duplicates", "anchors": ["include/l3ster/util/Algorithm.hpp: sortingPermutation, copyPermuted, sortRemoveDup, sortedUniqueElements", "include/l3ster/util/IndexMap.hpp"]}
{"id": "C16", "title": "Grid generators hit the end points and are monotone", "statement": "linspace/geomspace style generators return the requested number of points, start and end exactly at the given bounds and are strictly monotone for distinct bounds (exact arithmetic).", "quantifier": "all bounds, counts >= 2", "why_tests_cant": "real-valued parameters, arbitrary counts", "anchors": ["include/l3ster/util/Common.hpp: linspace, linspaceArray, geomSpaceProg"]}
{"id": "C17", "title": "Parallelism and stack-size limits nest correctly", "statement": "While guards are alive the effective thread limit is the minimum requested (at least 1) and after destruction in reverse order the previous value is restored; the recorded stack-size request is the running maximum of all requests and the soft limit is never lowered.", "quantifier": "all nestings and request histories", "why_tests_cant": "unbounded histories of guards", "anchors": ["include/l3ster/util/ScopeGuards.hpp: MaxParallelismGuard", "include/l3ster/util/SetStackSize.hpp: MaxStackSizeTracker, setMinStackSize"]}
{"id": "C18", "title": "Type-erased callables are destroyed exactly once", "statement": "Through any sequence of construction, moves, assignments and destruction, every stored callable is destroyed exactly once and never used after destruction, for in-buffer and heap targets alike; no heap target leaks.", "quantifier": "all sequences of operations on any number of objects", "why_tests_cant": "unbounded histories of moves and assignments", "anchors": ["include/l3ster/util/TypeErasedOverload.hpp: TypeErasedOverload, moveImpl, dtorImpl"]}
{"id": "C19", "title": "Library initialisation guards finalise exactly once", "statement": "If MPI/Kokkos are initialised by a guard they are finalised exactly once, after the last owning guard dies, regardless of moves between guards, and never if the user had initialised them.", "quantifier": "all sequences of guard construction, move construction, move assignment and destruction", "why_tests_cant": "histories of moves are unbounded", "anchors": ["include/l3ster/util/ScopeGuards.hpp: MpiScopeGuard, KokkosScopeGuard"]}
{"id": "C20", "title": "Element side tables are geometrically right for every order", "statement": "For line, quad and hex elements of every order, the nodes listed for a side are exactly the element nodes whose reference coordinate is -1 (or +1) on that side, boundary nodes are the union of the sides and internal nodes the complement; an invalid side number throws.", "quantifier": "all element orders, all sides, all node indices", "why_tests_cant": "orders are unbounded template parameters; tests instantiate a few", "anchors": ["include/l3ster/mesh/ElementTraits.hpp: ElementTraits, getBoundaryInds, makeBoundaryNodeInds, makeInternalNodeInds, getSideNodeIndices", "include/l3ster/mesh/NodeReferenceLocation.hpp"]}
{"id": "C21", "title": "Element lookup by id returns the element with that id", "statement": "MeshPartition::find(id) returns an element with the requested id exactly if the mesh contains one.", "quantifier": "all meshes that the library's own routines can produce, all ids", "why_tests_cant": "depends on id order within domains, an invariant created elsewhere", "anchors": ["include/l3ster/mesh/MeshPartition.hpp: findImpl, find"]}
{"id": "C22", "title": "Mesh construction derives the right node ownership", "statement": "A mesh built from domains owns every node that occurs in its elements and no other; with an explicit owned range, the ghosts are exactly the element nodes outside it.", "quantifier": "all element collections and node numberings", "why_tests_cant": "gaps in node numbering appear only in some inputs", "anchors": ["include/l3ster/mesh/MeshPartition.hpp: MeshPartition, getNodeOwnership"]}
{"id": "C23", "title": "Boundary elements are matched to the right side of a parent", "statement": "For every boundary domain each boundary element yields exactly one (parent, side) pair, where the nodes of that side of the parent are the boundary element's nodes as a set; if no parent exists construction throws.", "quantifier": "all meshes, all node orders within elements", "why_tests_cant": "all meshes and permutations of boundary node order", "anchors": ["include/l3ster/mesh/MeshPartition.hpp: makeBoundaryElementViews, matchBoundaryNodesToElement, doesSideMatch"]}
{"id": "C24", "title": "Structured line/square/cube meshes are conforming", "statement": "For every grid size the generated mesh has the right number of nodes and elements, element ids 0..N-1 without repetition, node ids in range, neighbouring elements sharing exactly their common face's nodes, and each boundary element equal to the corresponding side of the adjacent cell.", "quantifier": "all grid sizes with at least two points per direction", "why_tests_cant": "sizes are unbounded; index arithmetic errors show at particular sizes", "anchors": ["include/l3ster/mesh/primitives/CubeMesh.hpp: makeCubeMesh", "include/l3ster/mesh/primitives/SquareMesh.hpp: makeSquareMesh", "include/l3ster/mesh/primitives/LineMesh.hpp: makeLineMesh"]}
{"id": "C25", "title": "Cache-aware reordering neither loses nor duplicates elements", "statement": "The element order used by a local mesh view is a permutation of the elements of the partition, whatever the hash-table iteration order and ties.", "quantifier": "all meshes, all tie-breaking orders", "why_tests_cant": "iteration order of hash containers is unspecified", "anchors": ["include/l3ster/mesh/LocalMeshView.hpp: reorderByAdjacency, NodeCacheHotnessModel"]}
{"id": "C26", "title": "Compact local elements give back all their nodes", "statement": "A local element view stores only part of the node list yet getLocalNodes returns the local index of each of the element's nodes, in element order; element sides on a boundary are reported for each boundary id.", "quantifier": "all element orders, all numberings with contiguous internal nodes, all others must throw", "why_tests_cant": "template orders and numberings unbounded", "anchors": ["include/l3ster/mesh/LocalMeshView.hpp: LocalElementView, getLocalNodes, getBoundaries"]}
{"id": "C27", "title": "Splitting a mesh by a predicate loses nothing and keeps ownership", "statement": "splitMeshPartition puts every domain element into exactly one part according to the predicate, boundary elements next to their parent, preserving order; each part owns exactly those of its nodes that the original mesh owned.", "quantifier": "all meshes and predicates", "why_tests_cant": "all subsets of elements", "anchors": ["include/l3ster/mesh/SplitMesh.hpp: splitMeshPartition, assignBoundaryElements, makeMesh"]}
{"id": "C28", "title": "Partitioning gives each node exactly one owner and contiguous ranges", "statement": "After partitioning, every node is owned by exactly one part, each part sees each owned node in one of its elements, new node ids are a bijection onto 0..N-1 with part p owning a contiguous block after those of lower parts, and elements are rewritten consistently.", "quantifier": "all meshes, all outputs of the graph partitioner, all numbers of parts", "why_tests_cant": "the partitioner's answer is arbitrary input to this code", "anchors": ["include/l3ster/mesh/PartitionMesh.hpp: assignNodes, reassignDisjointNodes, renumberNodes, makeMeshFromPartitionComponents"]}
{"id": "C29", "title": "Partitioning keeps every boundary element exactly once", "statement": "After partitioning, each boundary element is present in exactly one part, the part holding a volume element it bounds; partitioning succeeds for every valid mesh.", "quantifier": "all meshes including boundaries between two domains", "why_tests_cant": "needs meshes with interior interfaces and all partitions", "anchors": ["include/l3ster/mesh/PartitionMesh.hpp: assignBoundaryElements"]}
{"id": "C30", "title": "Node condensation for the partitioner is a bijection", "statement": "The forward and inverse condensation maps are mutually inverse between the boundary nodes and 0..n-1, order preserving; condensed weights and uncondensed partition labels belong to the right nodes and internal nodes follow their element.", "quantifier": "all node sets and weights", "why_tests_cant": "in-place update and arbitrary node sets", "anchors": ["include/l3ster/mesh/PartitionMesh.hpp: makeNodeCondensationMaps, condenseNodeWeights, uncondenseNodes"]}
{"id": "C31", "title": "Merging meshes renumbers nodes and elements without clashes", "statement": "After merge, matched nodes of the second mesh coincide with those of the first, all other nodes get distinct fresh ids so that ids fill 0..N1+N2-matched-1; remaining elements get ids 0..n-1 preserving relative order.", "quantifier": "all pairs of meshes and all injective node matchings, all sets of removed faces", "why_tests_cant": "all matchings", "anchors": ["include/l3ster/mesh/MeshUtils.hpp: merge, translateElement, fixElementIds, matchExistingNodes"]}
{"id": "C32", "title": "Extrusion produces conforming prisms", "statement": "extrude yields (layers-1) copies of each element with distinct ids, nodes id + layer*N, upper and lower faces shared between consecutive layers, and back/front boundaries equal to the first and last layer.", "quantifier": "all 2D meshes with node ids 0..N-1, all layer counts > 1", "why_tests_cant": "sizes unbounded", "anchors": ["include/l3ster/mesh/MeshUtils.hpp: extrude"]}
{"id": "C33", "title": "Gmsh element import preserves geometry and orientation", "statement": "Elements read from a Gmsh file keep their node set and each node its coordinates, are listed in the library's tensor order, and planar quads come out positively oriented.", "quantifier": "all node quadruples and coordinates (exact arithmetic)", "why_tests_cant": "real-valued coordinates, all orientations", "anchors": ["include/l3ster/mesh/ReadMesh.hpp: makeElementFromNodeData"]}
{"id": "C34", "title": "Converting a mesh to higher order keeps it conforming", "statement": "convertMeshToOrder turns every valid conforming first-order mesh into the mesh with the same domains, elements and coordinates in which vertices keep their ids, two nodes anywhere have the same id exactly if they are at the same position, and ids are consecutive.", "quantifier": "all conforming meshes of lines, quads and hexes (any number of domains, any relative orientation of neighbours, elements meeting in common faces), all orders, all neighbour orders", "why_tests_cant": "all meshes and orientations; floating point locations only in exact arithmetic", "anchors": ["include/l3ster/mesh/ConvertMeshToOrder.hpp: convertMeshToOrder", "include/l3ster/mesh/ElementIntersecting.hpp: elementIntersection, updateMatchMask, matchingPermutation"]}
{"id": "C35", "title": "Saved mesh files load back", "statement": "Loading a mesh file written by any number of ranks gives back each part (domains, elements, boundary ids, ownership), for every comment string.", "quantifier": "all numbers of ranks, part contents and comments", "why_tests_cant": "file layout depends on all sizes and on comment text", "anchors": ["include/l3ster/post/NativeIO.hpp: save, extractSavedPartitionInfo, loadPartitionedMesh", "include/l3ster/mesh/MeshUtils.hpp: serializeMesh, deserializeMesh"]}
{"id": "C36", "title": "Saved results load back for any distribution of nodes", "statement": "A results file written collectively by any distribution of nodes over ranks, then read on any other distribution, gives every node the value it had, for every field; concurrent writers touch disjoint byte ranges.", "quantifier": "all rank counts, node distributions, field counts and comments, all write orders", "why_tests_cant": "distributions and write orders are unbounded", "anchors": ["include/l3ster/post/NativeIO.hpp: save, LoadedResults, loadResultsImpl"]}
{"id": "C37", "title": "Loading a partitioned mesh as one keeps it usable", "statement": "A mesh saved by several ranks and loaded as a single mesh contains every element once and can be queried by element id.", "quantifier": "all numbers of parts and element assignments", "why_tests_cant": "element order depends on the partition at save time", "anchors": ["include/l3ster/post/NativeIO.hpp: loadUnifiedMesh", "include/l3ster/mesh/MeshPartition.hpp: find"]}
{"id": "C38", "title": "Rank reordering preserves the mesh", "statement": "Optimising the assignment of parts to ranks only renumbers nodes: the same node gets the same new id on every rank that knows it, distinct nodes get distinct ids, and saved old ids stay attached to their nodes.", "quantifier": "all partitions, all rank permutations", "why_tests_cant": "depends on ghost order under non-monotone renumbering", "anchors": ["include/l3ster/comm/DistributeMesh.hpp: permuteMesh, establishNewNodeIds, getOldNodeIds, optimizeMeshDistribution", "include/l3ster/util/SegmentedOwnership.hpp"]}
{"id": "C39", "title": "Global degrees of freedom are numbered uniquely and consistently", "statement": "Each active (node, component) pair gets exactly one global number, numbers fill 0..N-1 with each rank's block contiguous and ordered by rank, all ranks knowing a node agree on its numbers, inactive components are marked invalid.", "quantifier": "all meshes, problem definitions and rank counts", "why_tests_cant": "global uniqueness over all distributions", "anchors": ["include/l3ster/dofs/NodeToDofMap.hpp: NodeToGlobalDofMap, computeNumOwnedDofs, computeBaseDof, computeOwnedDofs, communicateSharedDofs"]}
{"id": "C40", "title": "Element dof queries return exactly the active dofs", "statement": "The sorted list of dofs of an element contains each valid dof of its nodes exactly once and nothing else; the unsorted variant keeps node-major order.", "quantifier": "all elements and dof tables", "why_tests_cant": "arbitrary tables with invalid entries", "anchors": ["include/l3ster/dofs/DofsFromNodes.hpp: getDofsCopy, getDofsFromNodes"]}
{"id": "C41", "title": "Periodic nodes share one set of dofs", "statement": "All nodes linked by a chain of periodic matches use the dofs of one representative; the representative is not itself redirected, and nodes without a match keep their own; components not listed as periodic are unaffected.", "quantifier": "all matchings, chains (corner nodes) and rank distributions", "why_tests_cant": "chains and their order are arbitrary", "anchors": ["include/l3ster/bcs/PeriodicBC.hpp: getComponents, scatterMatched, lookup", "include/l3ster/dofs/NodeToDofMap.hpp: fixPeriodicDofs"]}
{"id": "C42", "title": "Periodic matching finds partners within tolerance", "statement": "Every source node having a destination node closer than the tolerance (after translation) is matched; a source node without partner is reported as an error.", "quantifier": "all node clouds, translations and tolerances (exact arithmetic)", "why_tests_cant": "real-valued geometry; grid spacing derived from data", "anchors": ["include/l3ster/bcs/PeriodicBC.hpp: makeNodeSpacemap, NodeMatcher::match"]}
{"id": "C43", "title": "Algebraic Dirichlet elimination keeps the solution", "statement": "The system after applying Dirichlet conditions has exactly the solutions that take the prescribed values on constrained dofs and satisfy the remaining original equations; a symmetric matrix stays symmetric.", "quantifier": "all matrices, right-hand sides, constrained sets and values (any field)", "why_tests_cant": "all matrices", "anchors": ["include/l3ster/bcs/DirichletBC.hpp: DirichletBCAlgebraic::apply"]}
{"id": "C44", "title": "Solution normalisation pins exactly one dof", "statement": "For each component to be normalised, exactly one dof over all ranks is constrained; if the component has no dof anywhere an error is reported.", "quantifier": "all distributions of dofs over ranks, including ranks without any", "why_tests_cant": "distributed minimum with empty ranks", "anchors": ["include/l3ster/bcs/GetDirichletDofs.hpp: getDirichletDofs", "include/l3ster/bcs/LocalDirichletBC.hpp: getNormalizationDofs"]}
{"id": "C45", "title": "Matrix-free operator equals the assembled one", "statement": "Applying the matrix-free operator (gather, skip constrained entries, scatter, identity on constrained dofs, alpha/beta scaling) equals multiplying by the assembled matrix with algebraically imposed Dirichlet conditions.", "quantifier": "all element matrices, dof maps, constrained sets, vectors, scalings, column counts", "why_tests_cant": "all meshes and vectors", "anchors": ["include/l3ster/algsys/MatrixFreeSystem.hpp: applyImpl, gather, scatter", "include/l3ster/bcs/DirichletBC.hpp"]}
{"id": "C46", "title": "Import delivers owners' values to ghosts", "statement": "After a completed import, each rank's ghost entry for id i holds the owner's current value of i, for every vector of the multivector, and owned data are unchanged.", "quantifier": "all rank counts, distributions, neighbour graphs, numbers of vectors, strides, message orders", "why_tests_cant": "cross-rank property over all distributions and delivery orders", "anchors": ["include/l3ster/comm/ImportExport.hpp: Import, ImportExportContext, postRecvs, postSends, packSends"]}
{"id": "C47", "title": "Export combines all ghost contributions at the owner", "statement": "After a completed export, the owner's entry for i equals its previous value combined with the contribution of every rank having i as ghost, each exactly once, independent of message arrival order for a commutative combine.", "quantifier": "all rank counts, distributions, contributions and arrival orders", "why_tests_cant": "arrival order is arbitrary", "anchors": ["include/l3ster/comm/ImportExport.hpp: Export, unpack, wait"]}
{"id": "C48", "title": "Messages of different import/export objects cannot be confused", "statement": "Two import/export objects alive at the same time never use the same message tag between the same pair of ranks; within an object different vectors use different tags; tags fit the MPI limit.", "quantifier": "all creation histories of import/export objects of all value types", "why_tests_cant": "collisions appear after 256 creations or across value types", "anchors": ["include/l3ster/comm/ImportExport.hpp: makeTag, id_counter"]}
{"id": "C49", "title": "Receive completion is claimed by at most one thread", "statement": "However many threads poll tryReceive concurrently, at most one call per posted import returns true, and it does so only after all receives completed; if polling continues after completion some call returns true.", "quantifier": "all thread counts and interleavings of the atomic steps", "why_tests_cant": "schedules cannot be enumerated", "anchors": ["include/l3ster/comm/ImportExport.hpp: tryReceive, testReceive, postComms"]}
{"id": "C50", "title": "Border elements are evaluated exactly once per operator application", "statement": "During one application of the matrix-free operator the border part is evaluated exactly once, only after imported values have arrived, and its exports are sent exactly once, for every timing of message arrival.", "quantifier": "all schedules and arrival times, incl. no interior elements", "why_tests_cant": "timing dependent", "anchors": ["include/l3ster/algsys/MatrixFreeSystem.hpp: applyImpl", "include/l3ster/comm/ImportExport.hpp: tryReceive"]}
{"id": "C51", "title": "Concurrent sparsity-pattern construction is exact", "statement": "The sparsity graph built in parallel contains, for every dof, exactly the dofs sharing an element with it, sorted without repetition, for every interleaving of the worker threads; shared rows sent to the owner are merged without loss.", "quantifier": "all element lists and interleavings", "why_tests_cant": "interleavings of atomic slot reservation", "anchors": ["include/l3ster/algsys/SparsityGraph.hpp: computeLocalGraph, serializeSharedGraph, appendSharedFromSerial"]}
{"id": "C52", "title": "Static condensation is equivalent to the full system", "statement": "Solving the condensed system and recovering the internal unknowns gives exactly the solutions of the full symmetric element-assembled system whenever the internal blocks are invertible.", "quantifier": "all element collections, block sizes, matrices", "why_tests_cant": "all matrices and element counts", "anchors": ["include/l3ster/algsys/StaticCondensationManager.hpp: endAssembly, recoverSolution, condenseSystem"]}
{"id": "C53", "title": "Condensation honours the caller's field order", "statement": "With static condensation, the i-th unknown of the kernel is associated with the i-th entry of the dof-index list given by the caller, as without condensation.", "quantifier": "all dof-index lists", "why_tests_cant": "only lists that are not increasing expose it", "anchors": ["include/l3ster/algsys/StaticCondensationManager.hpp: computeLocalDofInds"]}
{"id": "C54", "title": "Batched local assembly equals the direct sum", "statement": "The local matrix and right-hand side equal the weighted sum over all quadrature points of the least-squares products, whatever the batch size, number of updates and weight signs.", "quantifier": "all update sequences, batch sizes, weights (exact arithmetic)", "why_tests_cant": "all sequence lengths relative to batch size", "anchors": ["include/l3ster/algsys/AssembleLocalSystem.hpp: LocalSystemManager"]}
{"id": "C55", "title": "A failed element does not contaminate later elements", "statement": "If assembling an element aborts with an error, the next element assembled on the same thread yields the same local system as in a fresh state.", "quantifier": "all abort points and subsequent updates", "why_tests_cant": "needs the abort in the middle of a batch", "anchors": ["include/l3ster/algsys/AssembleLocalSystem.hpp: LocalSystemManager::setZero, assembleLocalSystem", "include/l3ster/algsys/EvaluateLocalOperator.hpp: OperatorEvaluationManager"]}
{"id": "C56", "title": "Sum factorisation equals direct tensor evaluation", "statement": "Values and derivatives at quadrature points (and the transposed accumulation) computed by successive 1D sweeps equal the direct sums with tensor-product basis functions, with the data layouts used by gather and scatter.", "quantifier": "all orders, numbers of fields, quadrature sizes, nodal values (any commutative ring)", "why_tests_cant": "all orders; layout errors cancel on symmetric data", "anchors": ["include/l3ster/algsys/SumFactorization.hpp: sumFactBackQuad, sumFactBackHex, sumFactForwardQuad, sumFactForwardHex", "include/l3ster/algsys/MatrixFreeSystem.hpp: gatherSumFact, scatterSumFact"]}
{"id": "C57", "title": "Odd-even decomposition equals the plain product", "statement": "For interpolation/differentiation matrices with the point symmetry of symmetric nodes and points, the odd-even algorithm gives the plain matrix product for all parities of sizes.", "quantifier": "all sizes (even/odd), all symmetric matrices and inputs", "why_tests_cant": "all sizes and parities", "anchors": ["include/l3ster/algsys/SumFactorization.hpp: makeEO, reconstructOddEven, oddEven blocks"]}
{"id": "C58", "title": "Sum-factorised kernels see the same point as standard kernels", "statement": "A user kernel evaluated through sum factorisation receives the physical coordinates of the quadrature point, as in the standard path.", "quantifier": "all hexahedra and quadrature points", "why_tests_cant": "only kernels depending on z expose it", "anchors": ["include/l3ster/algsys/SumFactorization.hpp: evalAtQuadQPs, evalAtHexQPs"]}
{"id": "C59", "title": "Nodal values set on several ranks are averages of the contributions", "statement": "computeValuesAtNodes leaves at each node the average over all contributing elements on all ranks; for a constant the result is that constant.", "quantifier": "all distributions of elements over ranks, all message timings", "why_tests_cant": "depends on when the buffered counts are transmitted", "anchors": ["include/l3ster/algsys/ComputeValuesAtNodes.hpp: averageElementContributions, computeValuesAtNodes"]}
{"id": "C60", "title": "Assembly must follow begin/end discipline", "statement": "For any call sequence, contributions are accepted only between beginAssembly and endAssembly (initially open), otherwise an error is raised and the system is unchanged; after begin the accumulated state is zero.", "quantifier": "all call sequences", "why_tests_cant": "call histories unbounded", "anchors": ["include/l3ster/algsys/AssembledSystem.hpp: beginAssembly, endAssembly, assertState", "include/l3ster/algsys/MatrixFreeSystem.hpp: assertState, assembleProblem"]}
{"id": "C61", "title": "Field storage is consistent between writer and reader", "statement": "Values written to field f at node n are exactly those returned by field access for (n, f); different (node, field) pairs never alias; out-of-range fields throw.", "quantifier": "all node and field counts, all write histories", "why_tests_cant": "all sizes and histories", "anchors": ["include/l3ster/post/SolutionManager.hpp: SolutionManager", "include/l3ster/post/FieldAccess.hpp: FieldAccess"]}
{"id": "C62", "title": "Integrals over the distributed mesh sum all ranks for all right-hand sides", "statement": "computeIntegral returns, for every component of the kernel result, the sum over all ranks of the local integrals.", "quantifier": "all rank counts, equation and right-hand-side counts", "why_tests_cant": "multi-column kernels are not exercised", "anchors": ["include/l3ster/post/Integral.hpp: computeIntegral"]}
{"id": "C63", "title": "Polynomial evaluation, derivative and integral are right", "statement": "Horner evaluation equals the power sum; derivative and integral routines produce the formal derivative/antiderivative, and derivative of integral is the identity.", "quantifier": "all degrees, coefficients and points (exact arithmetic)", "why_tests_cant": "all degrees", "anchors": ["include/l3ster/math/Polynomial.hpp"]}
{"id": "C64", "title": "Lagrange interpolation reproduces its data", "statement": "The interpolating polynomial takes the prescribed values at the nodes and is the unique one of its degree.", "quantifier": "all sets of distinct nodes and all values (exact arithmetic)", "why_tests_cant": "all node sets", "anchors": ["include/l3ster/math/LagrangeInterpolation.hpp"]}
{"id": "C65", "title": "Legendre polynomials satisfy their defining relations", "statement": "The generated Legendre polynomials have the right degree, value 1 at 1, parity (-1)^n and satisfy orthogonality; Lobatto points are symmetric.", "quantifier": "all degrees (exact arithmetic)", "why_tests_cant": "all degrees", "anchors": ["include/l3ster/math/Legendre.hpp", "include/l3ster/math/Lobatto.hpp"]}
{"id": "C66", "title": "Gauss quadrature is exact to the requested order", "statement": "The rule selected for polynomial order q has floor(q/2)+1 points, and a rule with these points at the roots of the orthogonal polynomial and interpolatory weights integrates every polynomial of degree <= q exactly; the tensor-product rules integrate products exactly on quads and hexes.", "quantifier": "all orders and polynomials (exact arithmetic)", "why_tests_cant": "all orders and integrands", "anchors": ["include/l3ster/quad/GenerateQuadrature.hpp", "include/l3ster/quad/ReferenceQuadrature.hpp", "include/l3ster/math/ComputeGaussRule.hpp"]}
{"id": "C68", "title": "Nodal basis: Kronecker property, partition of unity, consistent numbering", "statement": "Basis function i of an element takes value 1 at node i and 0 at other nodes, all sum to 1 everywhere, and their derivatives sum to 0, for line, quad and hex of every order with distinct abscissae.", "quantifier": "all orders, points (exact arithmetic)", "why_tests_cant": "all orders", "anchors": ["include/l3ster/basisfun/ReferenceBasisFunction.hpp", "include/l3ster/mesh/NodeReferenceLocation.hpp"]}
{"id": "C69", "title": "Boundary normals are unit, orthogonal and outward", "statement": "For a positively oriented element the computed side normal has length 1, is orthogonal to the side's tangents and points out of the element.", "quantifier": "all Jacobians with positive determinant, all sides (exact arithmetic)", "why_tests_cant": "real-valued Jacobians", "anchors": ["include/l3ster/mapping/BoundaryNormal.hpp"]}
{"id": "C70", "title": "Side mapping carries reference boundary points onto the side", "statement": "Mapping a reference boundary point to side s gives a point whose side coordinate is fixed at -1 or +1 as in the side tables and which stays inside the reference element; the mapping is injective and area preserving.", "quantifier": "all sides and reference points (exact trigonometry)", "why_tests_cant": "real-valued points", "anchors": ["include/l3ster/mapping/ReferenceBoundaryToSideMapping.hpp", "include/l3ster/math/RotationMatrix.hpp"]}
{"id": "C71", "title": "Boundary integrals use the right surface measure", "statement": "The surface Jacobian is the length/area scaling of the side's tangents in 2D/3D and 1 for end points of 1D elements.", "quantifier": "all Jacobians (exact arithmetic), all dimensions", "why_tests_cant": "real-valued Jacobians", "anchors": ["include/l3ster/mapping/BoundaryIntegralJacobian.hpp"]}
{"id": "C73", "title": "VTK sub-cells tile the element", "statement": "For every order the sub-cell connectivity written for an element has order^dim cells of valid local node indices, each grid cell exactly once with the corner order VTK expects; offsets and types arrays agree in length.", "quantifier": "all element orders and mesh sizes", "why_tests_cant": "all orders", "anchors": ["include/l3ster/post/VtkExport.hpp: numSubels, serializeElementSubtopo, serializeTopology"]}
{"id": "C74", "title": "VTK appended-data offsets point at their sections", "statement": "Each data array's offset attribute is the position in the appended section where that array's encoding starts, for any number and kind of fields.", "quantifier": "all field lists and sizes", "why_tests_cant": "arbitrary lists", "anchors": ["include/l3ster/post/VtkExport.hpp: makeDataDescription, enqueueWrite"]}
{"id": "C75", "title": "Parallel VTK header agrees with the piece headers", "statement": "The parallel header names as active scalars a scalar field and as active vectors a vector field (the first of each), the same as in the piece files.", "quantifier": "all lists of exported fields", "why_tests_cant": "depends on order and kind of fields", "anchors": ["include/l3ster/post/VtkExport.hpp: appendPvtuPointDataDef, makeDataDescription"]}
{"id": "C77", "title": "Native preconditioners honour the operator contract", "statement": "apply computes Y := alpha*M*X + beta*Y where M is the damped inverse diagonal (Jacobi) or damped identity (Richardson), for all alpha, beta and number of sweeps >= 1.", "quantifier": "all vectors, scalings and sweep counts (exact arithmetic)", "why_tests_cant": "beta is 0 in the library's own calls", "anchors": ["include/l3ster/solve/NativePreconditioners.hpp"]}
{"id": "C78", "title": "Solvers solve the system they are given", "statement": "Each call of solve works on the matrix, right-hand side and solution vector passed to that call.", "quantifier": "all sequences of solve calls with possibly different systems", "why_tests_cant": "needs two different systems in one solver object", "anchors": ["include/l3ster/solve/Amesos2Solvers.hpp", "include/l3ster/solve/BelosSolvers.hpp"]}
{"id": "C79", "title": "Compile-time integer helpers are exact", "statement": "Integer powers equal the mathematical power whenever it is representable (and its residue for unsigned types otherwise); the smallest integral type chosen for an interval represents the whole interval, has minimal width, and the request is rejected only when no supported type fits.", "quantifier": "all bases, exponents and interval bounds", "why_tests_cant": "all bounds, including those next to type limits", "anchors": ["include/l3ster/util/Common.hpp: integralPower, smallest_integral_t"]}
{"id": "C80", "title": "Bounded vector respects element life times", "statement": "For element types with non-trivial construction/destruction no element is used or destroyed outside its life time and every constructed element is destroyed exactly once, for every history of operations.", "quantifier": "all operation histories and capacities", "why_tests_cant": "element types used in tests are trivial", "anchors": ["include/l3ster/util/StaticVector.hpp: push_back, pop_back, erase"]}
{"id": "C81", "title": "Jacobi matrix is the derivative of the geometric map", "statement": "At every reference point the Jacobi matrix contains the derivatives of the map that places points in physical space (row = reference direction, column = space coordinate), and that map takes the reference corners to the element's vertices.", "quantifier": "all element types, vertex positions and reference points (exact arithmetic)", "why_tests_cant": "all points and shapes", "anchors": ["include/l3ster/mapping/JacobiMat.hpp: getNatJacobiMatGenerator", "include/l3ster/mapping/MapReferenceToPhysical.hpp: mapToPhysicalSpace", "include/l3ster/mesh/NodePhysicalLocation.hpp"]}
{"id": "C82", "title": "Physical basis derivatives are gradients; linear fields pass the patch test", "statement": "On a non-degenerate element the computed physical derivatives of basis function i form the gradient of the function of physical space that it represents; a field with the nodal values of a linear function has exactly that function's gradient everywhere.", "quantifier": "all element types and orders, non-degenerate vertex positions and reference points (exact arithmetic)", "why_tests_cant": "all shapes, orders and points", "anchors": ["include/l3ster/mapping/ComputePhysBasisDer.hpp: computePhysBasisDers", "include/l3ster/basisfun/ReferenceBasisFunction.hpp: computeRefBasisDers"]}
{"id": "C76", "title": "Parallel file lists the files the ranks write", "statement": "The parallel file of an export lists one piece per rank in rank order; the r-th source, resolved in the directory of the parallel file, is the file rank r writes; different ranks write different files, none of them the parallel file.", "quantifier": "all export names with a non-empty file name part, all rank counts and field lists", "why_tests_cant": "arbitrary names with directories, dots and extensions", "anchors": ["include/l3ster/post/VtkExport.hpp: appendPvtuPieceDataDef, makeVtuFileName, enqueuePvtuFileWrite, enqueueVtuFileWrite"]}
{"id": "C83", "title": "Exported files hold exactly the exported document", "statement": "After an export (for any completion order of the asynchronous writes) a piece file holds exactly the exported document, whatever a file of that name contained before.", "quantifier": "all previous contents, fields, meshes and write orders", "why_tests_cant": "needs stale files and asynchronous completion orders", "anchors": ["include/l3ster/post/VtkExport.hpp: openFileForExport, enqueueVtuFileWrite"]}
{"id": "C84", "title": "Exports under different names do not overwrite each other", "statement": "Two exports with different names write different parallel files and different piece files.", "quantifier": "all pairs of export names", "why_tests_cant": "all pairs of names", "anchors": ["include/l3ster/post/VtkExport.hpp: makeVtuFileName, enqueuePvtuFileWrite"]}
{"id": "C85", "title": "Preconditioner selection is defined for every supported pair", "statement": "Setting up a solver with any of the library's preconditioners either builds the preconditioner from the matrix or operator, or reports an error.", "quantifier": "all preconditioner kinds, stored and matrix-free operators", "why_tests_cant": "tests use valid combinations only", "anchors": ["include/l3ster/solve/PreconditionerInterface.hpp: initPreconditioner"]}
{"id": "C86", "title": "A Gmsh text file is read as the mesh it describes", "statement": "For every ASCII file in the Gmsh 4 format, however its numbers are laid out and whatever other sections lie between, readMesh builds exactly the mesh of the entities, nodes and elements listed.", "quantifier": "all file contents: any entities, node blocks, element blocks, white space and extra sections", "why_tests_cant": "tests read a handful of files written by one program version", "anchors": ["include/l3ster/mesh/ReadMesh.hpp: readMesh, parse_format, parse_entities, parse_nodes, parse_elements", "include/l3ster/util/IO.hpp: extract, ignore, MmappedStreambuf::skipPast"]}
{"id": "C87", "title": "Unreadable Gmsh files are refused", "statement": "Whatever a .msh file contains, readMesh either builds a mesh or throws; it never runs into undefined behaviour.", "quantifier": "all byte sequences", "why_tests_cant": "the state after a failed read depends on where it happens; tests only try unsupported formats", "anchors": ["include/l3ster/mesh/ReadMesh.hpp: readMesh", "include/l3ster/util/IO.hpp: extract"]}
{"id": "C88", "title": "Node ordering is a permutation of the local nodes", "statement": "computeNodeOrder returns the local nodes of a mesh part (owned and ghost) each exactly once: owned nodes interior to no element first in ascending order, then the interior nodes element by element, then the ghosts. It throws exactly when an interior node occurs twice or is not owned.", "quantifier": "for every mesh part (any domains, element types, orders and connectivity) and every ownership", "why_tests_cant": "tests order one or two generated meshes, and cannot show that the size check alone rules out every bad input", "anchors": ["include/l3ster/mesh/LocalMeshView.hpp: computeNodeOrder", "include/l3ster/mesh/MeshPartition.hpp: getMaxDim", "include/l3ster/mesh/Element.hpp: getInternalNodes"]}
{"id": "C89", "title": "Partitioning weights count the degrees of freedom of a node", "statement": "On a mesh numbered from zero without gaps, computeNodeWeights gives each node the number of distinct degrees of freedom that the problem definition activates at it, however definitions and domains overlap. ProblemDefinition::define records exactly the given indices and refuses indices that are too large.", "quantifier": "for every mesh, problem definition and number of dofs per node", "why_tests_cant": "tests use small dof counts, so that windows of the shared bitset do not straddle its 64-bit words", "anchors": ["include/l3ster/mesh/PartitionMesh.hpp: computeNodeWeights", "include/l3ster/common/ProblemDefinition.hpp: ProblemDefinition::define", "include/l3ster/util/DynamicBitset.hpp: SubView::count"]}
{"id": "C90", "title": "The heterogeneous element vector behaves as one sequence", "statement": "UniVector::at, find, size, empty and visit agree with the concatenation of the vectors; at throws exactly beyond the end; a parallel visit calls the function once per element; transformReduce gives the reduction of all elements whatever the grouping chosen at run time.", "quantifier": "for every number of types, vector sizes, predicates, associative commutative reductions and schedules", "why_tests_cant": "tests run one schedule on a fixed container and a neutral initial value", "anchors": ["include/l3ster/util/UniVector.hpp: UniVector::at, find, visit, transformReduce", "include/l3ster/util/TbbUtils.hpp: parallelTransformReduce"]}
{"id": "C91", "title": "The sum-factorised element operator equals the standard element operator", "statement": "With the same quadrature rule, the result which the sum-factorised evaluation of the domain kernel on a quadrilateral or hexahedral element hands to the scatter (node, unknown, right-hand side) equals the result of the standard element operator (evaluateLocalOperator) for the same operand, external fields and kernel: choosing the local operator evaluation strategy cannot change the action of the matrix-free operator.", "quantifier": "for all element orders, 1D quadrature rules, element geometries (planar for quadrilaterals), kernels, numbers of unknowns, equations, right-hand sides and external fields, operands, field values, batch sizes and contents of uninitialised work buffers", "why_tests_cant": "tests compare the two paths on a few meshes, one or two kernels and low orders; none uses a kernel which depends on the third coordinate on a hexahedron", "anchors": ["include/l3ster/algsys/SumFactorization.hpp: sumFactImpl, evalAtQuadQPs, evalAtHexQPs", "include/l3ster/algsys/EvaluateLocalOperator.hpp: evaluateLocalOperator", "include/l3ster/algsys/AssembleLocalSystem.hpp: evalKernel", "include/l3ster/mapping/JacobiMat.hpp: getNatJacobiMatGenerator"]}
{"id": "C92", "title": "The one-dimensional matrices hold their values whatever the static initialisation order", "statement": "When main starts, the interpolation and derivative matrices of the sum-factorisation module, their transposes and their even/odd parts hold the values computed from the basis functions at the quadrature points, whatever order the implementation chooses for the dynamic initialisation of these variable-template instances.", "quantifier": "for all numbers of basis functions and points, all basis values and all initialisation orders of the twelve variables", "why_tests_cant": "a test sees only the initialisation order picked by one compiler and linker for one program", "anchors": ["include/l3ster/algsys/SumFactorization.hpp: interpolation_matrix, derivative_matrix, interpolation_matrix_trans, derivative_matrix_trans, psi_plus_interp_back, psi_minus_interp_back, psi_plus_interp_forward, psi_minus_interp_forward, psi_plus_der_back, psi_minus_der_back, psi_plus_der_forward, psi_minus_der_forward, makeTransposed"]}
{"id": "C93", "title": "Solving the assembled system is minimising the discrete least-squares functional", "statement": "A vector solves the algebraic system (assembled or matrix-free, on any number of ranks, with Dirichlet values imposed) if and only if it has the prescribed values and minimises the sum over all elements, quadrature points and equations of the weighted squared residual of the user's kernel among all vectors with the prescribed values. The matrix is symmetric positive semidefinite, it is definite exactly if the homogeneous problem has only the zero solution, and the system can always be solved.", "quantifier": "for every mesh distribution, numbering of the dofs (also repeated dofs in an element), kernel, right-hand side, quadrature with nonnegative weights, set of constrained dofs and values, number of right-hand sides, and order of the additions made by the threads on every rank", "why_tests_cant": "Tests compare with manufactured solutions of a few problems; the equivalence with a minimisation over all vectors, for all kernels and distributions, cannot be sampled.", "anchors": ["include/l3ster/algsys/ScatterLocalSystem.hpp: scatterLocalSystem", "include/l3ster/algsys/AssembleGlobalSystem.hpp: assembleGlobalSystem", "include/l3ster/algsys/AssembleLocalSystem.hpp: assembleLocalSystem", "include/l3ster/algsys/MatrixFreeSystem.hpp: applyImpl, computeDiagAndRhs"]}
{"id": "C94", "title": "Right-hand side and diagonal of the matrix-free system are those of the assembled system", "statement": "After endAssembly() the right-hand side of a matrix-free system holds at constrained dofs the prescribed value and elsewhere the assembled right-hand side minus the constrained columns times the prescribed values, and the diagonal given to preconditioners is the diagonal of the assembled matrix with conditions.", "quantifier": "for every distribution over ranks, element matrices and right-hand sides, set of constrained dofs and values, number of right-hand sides, and order of the additions on every rank; for the diagonal the dofs of an element must be pairwise different", "why_tests_cant": "The result must not depend on the partition nor on the order of atomic additions; only a proof covers all.", "anchors": ["include/l3ster/algsys/MatrixFreeSystem.hpp: computeDiagAndRhs, scatterInit, gatherDirichletVals, getDirichletDofInds, importDirichletBCs, copyDiagImpl"]}
{"id": "C95", "title": "The matrix-free operator handles every admissible number of vectors within its buffers", "statement": "Applying the operator of a system declared for n vectors to a multivector with at most n columns processes every column exactly once and never reads or writes outside the element-local buffers; more columns, or different numbers of columns of operand and result, are refused.", "quantifier": "for every number of declared and actual vectors, nodes, unknowns and fields per element, with and without sum factorisation; kernels declared for the number of vectors of the system", "why_tests_cant": "Local buffers are sized at compile time from the kernel, loops run over the run-time number of columns; tests use one or two vectors.", "anchors": ["include/l3ster/algsys/MatrixFreeSystem.hpp: applyImpl, makeEvalKernel, defineOperator, gather, gatherSumFact, scatterSumFact", "include/l3ster/algsys/SumFactorization.hpp: evalLocalOperatorSumFact, sumFactImpl"]}
{"id": "C96", "title": "The hash table behind all node, element and DOF maps is a finite map", "statement": "Any sequence of insert/emplace/try_emplace, insert_or_assign/operator[], erase, find/at/count/contains, size, iteration, clear, reserve/rehash and compact calls on a robin_hood flat map or set reports exactly what a finite map would report (iteration visits each stored pair exactly once), for every hash function, unless a call throws std::overflow_error. No call touches a slot outside its array or lifetime. With at most 127 insertions nothing throws, whatever the hash function; 128 keys with one hash value always throw. operator== on two tables with any histories holds exactly when they have the same contents.", "quantifier": "all key and value types, all hash functions, all sequences of calls, all pairs of tables reached by such sequences", "why_tests_cant": "The behaviour depends on the interleaving of insertions, backward-shift erasures, info-byte increments being halved and rehashes; tests sample a few key sequences with one hash.", "anchors": ["include/l3ster/util/RobinHoodHashTables.hpp: detail::Table (keyToIdx, next, nextWhileLess, shiftUp, shiftDown, findIdx, insert_move, insertKeyPrepareEmptySpot, try_increase_info, increase_size, rehashPowerOfTwo, reserve, compact, clear, erase, operator==, Iter)"]}
{"id": "C97", "title": "Hashes of integer keys never coincide", "statement": "Two different 64-bit integers get different 64-bit hashes from robin_hood::hash_int, and still different ones after the table has mixed them with its multiplier, for every multiplier a table can ever have.", "quantifier": "all pairs of 64-bit keys, all tables reached by sequences of calls", "why_tests_cant": "2^128 pairs of keys and an unbounded set of multipliers.", "anchors": ["include/l3ster/util/RobinHoodHashTables.hpp: hash_int, Table::keyToIdx, nextHashMultiplier"]}
{"id": "C98", "title": "Copying the solution puts every value where it belongs", "statement": "updateSolution(source components, SolutionManager, destination fields) leaves, in field dst[i*n_rhs+rhs] at every node which has component src[i], the value of the global solution at that node's dof for that right-hand side, on owned and ghost nodes alike; fields not named and nodes without the component keep their values. This holds for every interleaving of the parallel stores and, for matrix-free systems, whatever is in the import buffer while interior elements are processed. Assembled and matrix-free systems leave the same fields. Wrong index lists are rejected before anything is written.", "quantifier": "all meshes, node and dof ownerships, dof maps with components missing at some nodes, component and field lists without repeated fields, numbers of right-hand sides, store orders, prior states of the solution manager", "why_tests_cant": "The result depends on the partition, the interior/border split, the schedule of the loops and the arrival of messages; a test sees one of each.", "anchors": ["include/l3ster/algsys/AssembledSystem.hpp: updateSolution", "include/l3ster/algsys/MatrixFreeSystem.hpp: updateSolution", "include/l3ster/algsys/StaticCondensationManager.hpp: validateSolutionUpdateInds, updateSolutionPrimaryDofs", "include/l3ster/algsys/ComputeValuesAtNodes.hpp: BorderAccessor", "include/l3ster/dofs/NodeToDofMap.hpp: LocalDofMap"]}
{"id": "C99", "title": "Condensed unknowns are those of the element's domain and return to their nodes", "statement": "With static condensation every element condenses exactly the components which the problem defines in its domain; the sizes of its blocks fit, and updateSolution leaves at every node, primary or condensed, the value of the uncondensed solution in the requested field, for every order of the stores.", "quantifier": "all meshes, problem definitions with different components in different domains, element orders, component and field lists, store orders", "why_tests_cant": "The set of condensed components is derived from the neighbours' dofs on the element's boundary, so it depends on the arrangement of domains; tests have a single arrangement.", "anchors": ["include/l3ster/algsys/StaticCondensationManager.hpp: StaticCondensationManager<ElementBoundary> constructor, recoverSolutionImpl, getInternalDofInds", "include/l3ster/dofs/NodeToDofMap.hpp: makeLocalDofBmp", "include/l3ster/common/ProblemDefinition.hpp: ProblemDefinition"]}
{"id": "C100", "title": "Rotation matrices", "statement": "Each of the makeRotationMatrix functions returns the matrix of the rotation by the angle it is given: about the x, y or z axis in the right-handed sense (Rodrigues' formula), and counter-clockwise in the plane (multiplication by exp(i a)); all of them are orthogonal with determinant one, compose by adding angles, and are inverted by the opposite angle.", "quantifier": "for all angles and all vectors", "why_tests_cant": "The side-mapping tests only use multiples of a right angle on a symmetric set of points; a sign error in the angle of the planar rotation maps the reference side onto itself with reversed parametrisation and goes unnoticed.", "anchors": ["include/l3ster/math/RotationMatrix.hpp: makeRotationMatrix3DX/3DY/3DZ/2D"]}
{"id": "C101", "title": "Typed communication moves whole elements", "statement": "The point-to-point and collective operations of MpiComm act on elements, whatever the (trivially copyable) element type and size: a message overwrites exactly the elements it contains and its probed size is the number of elements; gather and all-gather deliver the contributions in the order of the ranks; broadcast makes all buffers equal to the root's; scatter and all-to-all deliver to rank i the i-th block of elements; wrong sizes are reported as errors.  The throughput shares computed from a gather are positive, proportional to the thread counts and add up to one.", "quantifier": "for all numbers of ranks, element sizes, buffer contents and sizes", "why_tests_cant": "Tests use built-in element types, a handful of ranks, small buffers whose sizes are multiples of the number of ranks; the byte-level path of scatter and all-to-all, large counts and null output iterators are never exercised.", "anchors": ["include/l3ster/comm/MpiComm.hpp: parseMpiBuf, send, receive, Status::numElems, gather, allGather, scatter, broadcast, allToAllAsync", "include/l3ster/comm/GatherNodeThroughputs.hpp: gatherNodeThroughputs"]}
{"id": "C102", "title": "Every MPI handle has one owner until it is given back", "statement": "Requests, file handles and communicators obtained from MPI are owned by exactly one MpiComm::Request, FileHandle or MpiComm object from the moment they are created until they are given back (completed, closed, freed), whatever sequence of moves, waits, tests and destructions the program performs; no handle is ever given back twice, and when all owners are gone all handles have been given back, so that communication buffers can safely be reused.", "quantifier": "for all sequences of operations on any number of objects, including self-assignment and lists of requests", "why_tests_cant": "Leaks and double frees depend on the interleaving of moves and waits; tests follow a few fixed patterns, and a leaked request or communicator has no visible effect.", "anchors": ["include/l3ster/comm/MpiComm.hpp: MpiComm::Request, MpiComm::FileHandle, MpiComm move operations, destructors, waitAll, waitAny, test"]}
{"id": "C103", "title": "The quadrature chosen from the assembly options is exact for what the options promise", "statement": "If a kernel multiplies at most value_order field values and derivative_order derivatives, then on elements which are affine images of the reference element the rule chosen for the element order integrates the kernel (and, for local systems, the product of two such expressions) without error. This holds on segments. On quadrilaterals and hexahedra it holds if derivatives are counted with the full degree of the basis, and not otherwise.", "quantifier": "for all element types, element orders, abscissae of the basis, affine elements, value and derivative orders, kernels and quadrature rules returned by the generator", "why_tests_cant": "a test compares with a known integral for a few orders and kernels; under-integration of some products shows only as a small loss of accuracy or as rank deficiency in particular cases", "anchors": ["include/l3ster/algsys/AssembleLocalSystem.hpp: AssemblyOptions::order", "include/l3ster/algsys/AssembleGlobalSystem.hpp: assembleGlobalSystem", "include/l3ster/algsys/MatrixFreeSystem.hpp", "include/l3ster/post/Integral.hpp: evalLocalIntegral"]}
{"id": "C104", "title": "Cylinder-in-channel meshes cover the channel with positively oriented cells and consistent boundary ids", "statement": "For every geometry accepted by correct() with positive inner radius, the ten blocks of makeCylinderInChannel2DMesh (six for the half cylinder) have positive jacobian everywhere in every quadrilateral, their areas add up to the channel less the inscribed regular polygon, and every edge element either lies on a side of the channel / the symmetry axis / the cylinder and carries that boundary's id or coincides vertex by vertex with an edge element of another block. Pairwise distinct ids should be enough to build the mesh, and correct() should reject geometries for which cells degenerate.", "quantifier": "all geometries accepted by correct() (radii, offsets, cell counts, growth factors), all domain ids, all points of the reference square", "why_tests_cant": "the parameters are reals and unbounded counts; a test builds one geometry with the default ids, for which neither the clash with the default ids 1-4 nor a non-positive inner radius shows", "anchors": ["include/l3ster/mesh/primitives/CylinderInChannel2D.hpp: CylinderInChannel2DGeometry::correct, makeCylinderInChannel2DMesh", "include/l3ster/mesh/primitives/HalfCylinderInChannel2D.hpp: makeHalfCylinderInChannel2DMesh", "include/l3ster/mesh/primitives/SquareMesh.hpp: makeSquareMesh, SquareMeshIds"]}
{"id": "C105", "title": "A degree of freedom is constrained exactly where a Dirichlet definition says so, on every rank and in both systems", "statement": "After any sequence of defineDirichlet and normalize calls, in any order and with repetitions, the set of constrained dofs found when a system is built is exactly the set of dofs of named components at nodes of named boundaries, plus the dofs pinned for normalisation. Every rank finds all of its owned and shared constrained dofs, also where the boundary element is on another rank, in increasing order and once each. A component that does not exist at a node is passed over. Calls that name a component out of range throw and leave the definition unchanged. The assembled and the matrix-free system constrain the same dofs.", "quantifier": "for every number of components, every sequence of calls, every mesh, every partition into any number of ranks, every layout of components over nodes and every owner map", "why_tests_cant": "The dofs seen by a rank depend on where the partitioner put boundary elements relative to the owners of their nodes; tests run a few meshes on a few ranks with all components present on the boundary, and do not compare the two systems dof by dof.", "anchors": ["include/l3ster/bcs/BCDefinition.hpp: DirichletBCDefinition, BCDefinition::defineDirichlet, normalize", "include/l3ster/bcs/GetDirichletDofs.hpp: getDirichletDofs", "include/l3ster/bcs/LocalDirichletBC.hpp: LocalDirichletBC", "include/l3ster/dofs/DofsFromNodes.hpp: getDofsFromNodes", "include/l3ster/algsys/MatrixFreeSystem.hpp: is_interior"]}
{"id": "C106", "title": "A kernel starts from a zero result and may fill in only what it needs", "statement": "When the library calls a user's kernel, the result object it passes is zero: components the kernel does not assign are zero, and contributions added with += accumulate to their sum in any order. This holds for equation kernels (operators and right-hand sides, in domains and on boundaries) and for residual kernels (integrals, norms, values at nodes). The kernel of the L2 norm yields the squares of the components of the user's residual.", "quantifier": "for all kernel parameters (dimension, equations, unknowns, right-hand sides), all kernels as sequences of assignments that may read the result object, and all inputs", "why_tests_cant": "Uninitialised memory is often zero on a fresh stack, and the kernels in tests assign every component; no test can tell a zero from indeterminate memory that happens to be zero.", "anchors": ["include/l3ster/common/KernelInterface.hpp: initKernelResult, initResidualKernelResult, DomainEquationKernel, BoundaryEquationKernel, ResidualDomainKernel, ResidualBoundaryKernel", "include/l3ster/post/NormL2.hpp: getNormSquareComputer"]}
{"id": "C107", "title": "Fluxes through the sides of an element balance the divergence inside", "statement": "For every element of order m, whatever its vertices, and every vector field of the finite element space, the sum over all sides of the boundary integral of the normal component (as `evalElementBoundaryIntegral` and the boundary assembly compute it, with their surface jacobians and normals) equals the domain integral of the divergence (as the domain assembly computes it) whenever the rule is exact for polynomials of degree m + dim - 2. In particular a constant field has zero net flux, on any element and with any rule.", "quantifier": "all element types, orders, vertex positions (also curved-looking bilinear/trilinear and degenerate ones), nodal values, abscissae and reference rules", "why_tests_cant": "A test compares boundary and domain integrals on chosen meshes and fields; that normals, surface jacobians, cofactors and the two different quadrature embeddings fit together on every distorted element is an identity in all vertex coordinates.", "anchors": ["include/l3ster/post/Integral.hpp: detail::evalElementBoundaryIntegral, computeIntegral", "include/l3ster/mapping/BoundaryIntegralJacobian.hpp: computeBoundaryIntegralJacobian", "include/l3ster/mapping/BoundaryNormal.hpp: computeBoundaryNormal", "include/l3ster/basisfun/ReferenceElementBasisAtQuadrature.hpp: getReferenceBasisAtBoundaryQuadrature", "include/l3ster/mapping/ComputePhysBasisDer.hpp: computePhysBasisDers"]}
{"id": "C108", "title": "Communication rounds neither deadlock nor take each other's messages", "statement": "Whatever sequence of mesh distributions (with or without reordering of ranks), import/export contexts, blocking imports and sparsity graphs a program goes through, on any number of ranks, and however the ranks are interleaved and messages buffered: no rank waits forever, every message is received in the operation in which it was sent and by the rank it was sent to, and none is left over. In particular the wildcard receives of `invertPermutation` and `sendRecvMesh` find the rank that the reordering assigns.", "quantifier": "all numbers of ranks, call sequences, permutations, neighbour graphs and import tags; all interleavings; all buffering and collective-release behaviours MPI allows", "why_tests_cant": "Tests run a few interleavings on one MPI implementation with generous buffers; a wildcard receive that overtakes shows only under particular timing.", "anchors": ["include/l3ster/comm/DistributeMesh.hpp: detail::invertPermutation, detail::sendRecvMesh, detail::establishNewNodeIds, detail::scatterParts, detail::scatterNodes, optimizeMeshDistribution, distributeMesh, distributeMeshAndNodeMap", "include/l3ster/comm/ImportExport.hpp: ImportExportContext, Import::postRecvs, Import::postSends", "include/l3ster/util/SegmentedOwnership.hpp: getOwnershipDist, computeInNbrInfo", "include/l3ster/algsys/SparsityGraph.hpp: computeInNbrs, computeInNbrData", "include/l3ster/util/Algorithm.hpp: shift"]}
{"id": "C109", "title": "Exact solutions in the finite element space are found", "statement": "Let fields u satisfy, at the quadrature points, the equations of every domain and boundary kernel of a problem, agree with the Dirichlet values, and be on each element of the mesh a polynomial of the element's order in its reference coordinates. Then the values of u at the nodes solve the assembled system and the matrix-free system, every solution of the system has zero residuals, and a uniquely solvable system has exactly these values as its solution. Linear functions qualify on every element, polynomials of total degree up to the order on parallelograms and parallelepipeds, tensor polynomials on axis-aligned boxes.", "quantifier": "for every mesh of segments, quadrilaterals or hexahedra of any order and shape with positive jacobians, every distribution over ranks, every set of kernels with any external fields, every right-hand side number and every order of additions by the threads", "why_tests_cant": "tests solve a few manufactured problems on a few meshes and compare up to a tolerance; they cannot show that no mesh, kernel, order or distribution loses the solution", "anchors": ["include/l3ster/algsys/AssembleLocalSystem.hpp: assembleLocalSystem, evalKernel", "include/l3ster/mapping/MapReferenceToPhysical.hpp: mapDomain, mapBoundary", "include/l3ster/algsys/AssembledSystem.hpp: solve", "include/l3ster/algsys/MatrixFreeSystem.hpp"]}
{"id": "C110", "title": "Programs using the constexpr vector see lists and give back all memory", "statement": "A program that constructs, copies, moves, move-assigns, destroys, reserves, appends to, pops, clears and writes ConstexprVectors, keeping the preconditions of lists, never touches raw, freed or foreign storage, never overwrites or loses an object, always sees the sizes and elements of the corresponding lists, and holds no memory once all its vectors are destroyed. Appending one by one costs fewer than two element moves per element and leaves less than half of the storage spare; after reserve(n) nothing moves until more than n elements are held.", "quantifier": "for every element type, every number of vectors and every sequence of operations", "why_tests_cant": "Tests run a few sequences on small vectors; a double free, a lost element or a dangling read needs a particular interleaving of moves, growth and destruction, and shows up (if at all) as silent corruption.", "anchors": ["include/l3ster/util/ConstexprVector.hpp: ConstexprVector (constructors, operator=(ConstexprVector&&), reserve, emplaceBack, pushBack, popBack, clear, reallocate, grow)"]}
{"id": "C111", "title": "References into a reference-stable collection stay valid; unique pointers free once", "statement": "A ConstexprRefStableCollection behaves as a list under emplace, emplace of its own elements and writes; a reference to an element taken at any time refers to that element for ever and to no other; iterators reach the elements meant and a loop from begin to end sees each element once in order; the destructor frees each block once. Programs of ConstexprUniquePtrs never free an object twice and leave none behind; postfix increments return the old position and advance; a collection moved from knows it is empty.", "quantifier": "for every block size, element type, sequence of operations, position and iterator", "why_tests_cant": "A dangling reference needs the block table to be reallocated between taking and using it (after 64, 128, 256, ... elements); a leak is invisible to assertions; the tests use prefix increments only.", "anchors": ["include/l3ster/util/ConstexprRefStableCollection.hpp: ConstexprUniquePtr, constexprMakeUnique, ConstexprRefStableCollection (emplace, push, operator[], grow, Iterator)"]}
{"id": "C112", "title": "The answer does not depend on how the mesh is distributed", "statement": "Take one mesh with kernels, problem definition and Dirichlet conditions. On any number of ranks, with any partition of the elements, any ghosts and any renumbering of the nodes, the program sets up a system with the same number of unknowns, and a vector solves it exactly if the values it gives to (node, component) pairs are a least-squares solution of the undistributed problem. So solutions of two runs correspond to each other value by value, and where the solution is unique, two runs give the same value at every node and component, whether assembled or matrix-free and whatever the order in which threads add.", "quantifier": "all meshes, kernels, polynomial orders, boundary conditions, rank counts, partitions, node numberings and thread schedules", "why_tests_cant": "A test compares a few rank counts on a few meshes, up to rounding and solver tolerance", "anchors": ["include/l3ster/dofs/NodeToDofMap.hpp:NodeToGlobalDofMap", "include/l3ster/dofs/DofsFromNodes.hpp:getDofsFromNodes", "include/l3ster/algsys/AssembleGlobalSystem.hpp:assembleGlobalSystem", "include/l3ster/algsys/MatrixFreeSystem.hpp", "include/l3ster/bcs/PeriodicBC.hpp"]}
{"id": "C113", "title": "Whatever partition METIS returns, the answer is the same", "statement": "A mesh, a problem definition, kernels on domains and boundaries and Dirichlet conditions determine the answer: whether the program runs on one rank, or the mesh is cut with whatever element and node labels the partitioner returns, in whatever order threads and hash tables deliver, the assembled systems have the same number of unknowns and the same value at every node and component wherever the solution is unique. This holds as well when the parts are handed to other ranks (`optimize`).", "quantifier": "all meshes whose boundary elements are sides of one element, all programs, all numbers of ranks, all answers of the partitioner, all schedules, all permutations of ranks", "why_tests_cant": "the partitioner is a black box, and the path from mesh to solution goes through eight separately tested components; tests run a few rank counts with one METIS version", "anchors": ["include/l3ster/comm/DistributeMesh.hpp: distributeMesh, optimizeMeshDistribution, permuteMesh", "include/l3ster/mesh/PartitionMesh.hpp: partitionMesh, partitionMeshImpl", "include/l3ster/mesh/MeshPartition.hpp: visit, reindexNodes", "include/l3ster/dofs/NodeToDofMap.hpp: NodeToGlobalDofMap, NodeToLocalDofMap", "include/l3ster/algsys/AssembleGlobalSystem.hpp: assembleGlobalSystem", "include/l3ster/algsys/MakeAlgebraicSystem.hpp"]}
{"id": "C114", "title": "What is computed from the solution does not depend on how the mesh is distributed", "statement": "Solve, copy components of the solution into fields with updateSolution (of an assembled or a matrix-free system), and integrate a kernel reading these fields over domains or boundaries with computeIntegral, or take its norm with computeNormL2. On any two distributions of one mesh the program reports the same numbers, if the solution is unique and the copied components are active where they are integrated. Every value a kernel reads on any rank is defined and is that of the component and right-hand side its field was filled from.", "quantifier": "all meshes, programs, kernels and quadratures, numbers of right-hand sides, choices of components and fields, histories of the solution manager, partitions, ranks and schedules of the parallel loops", "why_tests_cant": "An index mixed up between component, right-hand side, field, node and rank only shows for particular combinations; tests compare integrals with analytical values up to a tolerance on one distribution", "anchors": ["include/l3ster/algsys/AssembledSystem.hpp: updateSolution", "include/l3ster/algsys/MatrixFreeSystem.hpp: updateSolution", "include/l3ster/post/SolutionManager.hpp", "include/l3ster/post/FieldAccess.hpp: getGloballyIndexed", "include/l3ster/post/Integral.hpp: computeIntegral", "include/l3ster/post/NormL2.hpp: computeNormL2"]}
{"id": "C115", "title": "Kernels assembled in parallel with static condensation add up", "statement": "With static condensation, after any calls of assembleProblem the blocks of every element hold the sum of all local systems assembled on it, whatever the schedule of the parallel loops over elements and over sides of elements.", "quantifier": "all meshes, kernels, local systems, numbers of calls and interleavings of the parallel loops", "why_tests_cant": "lost updates need two threads on one element at the same moment; tests on few elements or one core practically never show them", "anchors": ["include/l3ster/algsys/StaticCondensationManager.hpp: condenseSystemImpl", "include/l3ster/algsys/AssembleGlobalSystem.hpp: assembleGlobalSystem", "include/l3ster/mesh/MeshPartition.hpp: visitBoundaries", "include/l3ster/util/UniVector.hpp: visit"]}
{"id": "C116", "title": "Static condensation does not change the answer, on any distribution of the mesh", "statement": "Assembling with CondensationPolicy::ElementBoundary (the kernels scattered to the primary dofs, the internal unknowns eliminated element by element in endAssembly), solving the condensed system and recovering the internal values in updateSolution gives a least-squares solution of the whole problem, the same as assembling without condensation, however the mesh is distributed and in whatever order the additions happen. The blocks to be inverted are invertible whenever the solution is unique.", "quantifier": "all meshes, problem definitions, kernels, quadratures, Dirichlet and periodic conditions at primary nodes, numbers of right-hand sides, partitions, numberings and schedules of the parallel loops", "why_tests_cant": "The exact Schur complement identity holds only if every index table (primary/condensed positions, local rows, columns, global dofs) matches on every rank; tests compare one problem on one or two distributions up to a solver tolerance", "anchors": ["include/l3ster/algsys/StaticCondensationManager.hpp: condenseSystemImpl, endAssemblyImpl, recoverSolutionImpl", "include/l3ster/algsys/AssembledSystem.hpp: assembleProblem, endAssembly, updateSolution", "include/l3ster/dofs/NodeToDofMap.hpp", "include/l3ster/algsys/ScatterLocalSystem.hpp: scatterLocalSystem"]}
{"id": "C117", "title": "With periodic boundaries, too, the solution does not depend on how the mesh is distributed", "statement": "Constructing a PeriodicBC on a distributed mesh succeeds on every rank; nodes share their dofs in a component exactly if a chain of images under the periodic definitions naming that component leads from one to the other, whichever ranks own them. A problem with periodic boundaries, run on one rank or on any partition, yields systems with the same number of unknowns whose solutions agree component by component at every node of the original mesh.", "quantifier": "all meshes whose matching sides agree exactly up to the translation, all periodic definitions (several definitions per component, chains, corners), problem definitions, kernels, Dirichlet conditions, partitions, hash table orders, element orders, numbers of ranks", "why_tests_cant": "Matching goes through a spatial hash map, a broadcast of all ranks' nodes and a traversal of an adjacency graph, each in unspecified order, and the numbering then redirects nodes owned elsewhere; tests run one mesh on one distribution and look at the count of dofs", "anchors": ["include/l3ster/bcs/PeriodicBC.hpp: PeriodicBC, getSourceNodeData, getDestNodeData, NodeMatcher, gatherMatched, scatterMatched", "include/l3ster/dofs/NodeToDofMap.hpp: NodeToGlobalDofMap", "include/l3ster/mesh/PartitionMesh.hpp: partitionMesh", "include/l3ster/algsys/AssembleGlobalSystem.hpp: assembleGlobalSystem"]}
{"id": "C118", "title": "Switching on static condensation changes neither the answer nor its independence of the distribution", "statement": "Distribute one mesh over any number of ranks, with or without periodic boundaries, and let AssembledSystem condense internal dofs: construction succeeds, every dof on the boundary of an element has a number and no number is wasted, and the field left by updateSolution (solved values at primary dofs, recovered values at internal ones) is the least-squares solution of the problem on the undistributed mesh without condensation. Runs with and without condensation, on any two distributions, give the same value to every component at every node, internal nodes included.", "quantifier": "all meshes, element types and orders, problem definitions, kernels, Dirichlet conditions on boundaries, periodic definitions, partitions, numbers of ranks, orders of elements and of atomic additions, numbers of right-hand sides", "why_tests_cant": "Condensation changes which nodes are numbered, what each rank assembles and how the solution is written back; tests compare one or two problems on one distribution with a tolerance and without periodic boundaries", "anchors": ["include/l3ster/algsys/AssembledSystem.hpp: AssembledSystem", "include/l3ster/algsys/StaticCondensationManager.hpp: StaticCondensationManager", "include/l3ster/dofs/NodeToDofMap.hpp: NodeToGlobalDofMap", "include/l3ster/mesh/ElementTraits.hpp: boundary_node_inds", "include/l3ster/bcs/PeriodicBC.hpp: PeriodicBC", "include/l3ster/mesh/PartitionMesh.hpp: partitionMesh"]}
{"id": "C119", "title": "Meshes built by the library are ready for distribution", "statement": "A line, square or cube mesh built by the library on any increasing grid lines, for any choice of ids in which the domain is not one of the boundaries (boundaries may share an id), and brought to any order, satisfies everything the other properties assume about a mesh before it is distributed: it is well formed, its nodes are numbered 0, ..., N-1, every boundary element is a side of exactly one element (so its view is found, and is the same for every distribution), and no boundary is two-sided; N is the number of points of the lattice with n-1 intervals per element and direction, so no node is missing or duplicated. Converting any valid conforming mesh to higher order keeps this. Consequently a problem solved on such a mesh has the same number of unknowns and the same answer for every distribution.", "quantifier": "all numbers of grid lines (at least 2 per direction), all strictly increasing coordinates in which different nodes are at least 1e-12 apart, all ids, all orders representable in the code, all adjacency lists containing the neighbours, all partitions", "why_tests_cant": "The tests distribute a few fixed meshes of small orders; the statement ranges over all meshes the generators can produce and all orders, and composes generator, conversion, partitioning and assembly", "anchors": ["include/l3ster/comm/DistributeMesh.hpp: generateAndDistributeMesh", "include/l3ster/mesh/primitives/SquareMesh.hpp: makeSquareMesh", "include/l3ster/mesh/primitives/CubeMesh.hpp: makeCubeMesh", "include/l3ster/mesh/primitives/LineMesh.hpp: makeLineMesh", "include/l3ster/mesh/ConvertMeshToOrder.hpp: convertMeshToOrder"]}
{"id": "C120", "title": "A kernel is applied to every element of its domains, or the call throws", "statement": "When a kernel of dimension d is assembled on a list of domains and the call does not throw, it was applied to every element of those domains (for a boundary kernel: to the parent of every boundary element). On a distributed mesh, if no rank throws then each element of the listed domains has dimension d and is processed by exactly one rank; if a listed domain has an element of another dimension, at least one rank throws. All ranks reach the same verdict. Matrix-free systems and integrals also apply the kernel to every element.", "quantifier": "every mesh, every distribution (any answer of the graph partitioner), every list of domain ids, every dimension of the kernel", "why_tests_cant": "Tests use kernels which fit; elements of the wrong dimension are skipped at compile time inside a visitor, so that nothing is assembled and no error is seen; the verdict of the check depends on which domains a rank happens to hold.", "anchors": ["include/l3ster/algsys/OperatorUtils.hpp: checkDomainDimension", "include/l3ster/algsys/AssembleGlobalSystem.hpp: assembleGlobalSystem", "include/l3ster/algsys/MatrixFreeSystem.hpp: makeInitKernel, makeEvalKernel", "include/l3ster/post/Integral.hpp: evalLocalIntegral"]}
{"id": "C121", "title": "A matrix-free system evaluates exactly what an assembled system assembles, and gives the same answer", "statement": "On every rank of a distributed mesh, splitting the part into interior and border elements, building the two local views and running the kernel maps over them evaluates every domain kernel at every element of its domains and every boundary kernel at every side of its boundaries exactly once, with the same local dofs as assembly; no lookup throws; the elements evaluated before ghost values have arrived touch owned dofs only. Hence a vector for which the matrix-free operator equals its right-hand side on one distribution is the solution of the assembled system on any other distribution.", "quantifier": "for all meshes, partitions, orders of elements within views, programs of kernels, ranks and vectors", "why_tests_cant": "the two systems share no code for visiting elements; tests compare them on one mesh, one kernel and one number of ranks", "anchors": ["include/l3ster/algsys/MatrixFreeSystem.hpp: splitBorderAndInterior, initKernelMaps, invokeBoundaryKernels, apply, initImpl", "include/l3ster/mesh/LocalMeshView.hpp: LocalMeshView, visit", "include/l3ster/mesh/SplitMesh.hpp: splitMeshPartition", "include/l3ster/algsys/AssembleGlobalSystem.hpp: assembleGlobalSystem"]}
{"id": "C122", "title": "Meshes made by the library can be used matrix-free at any order on any distribution", "statement": "A matrix-free system keeps one number for all nodes inside an element and throws unless they are numbered consecutively on the rank. Conversion to higher order numbers the nodes inside every element of highest dimension consecutively; expanding the labels METIS gives for the condensed mesh gives every node a valid label and the nodes inside an element the label of the element; partitioning and reordering of parts keep the numbers consecutive. Hence for every line, square and cube mesh, and every converted mesh in which only boundaries have elements of lower dimension, a matrix-free system can be constructed on every rank, evaluates what is assembled there, and has the same solutions as the system assembled on any other distribution, as long as numbers fit into 32 bits. (False for domains of lower dimension which are not boundaries.)", "quantifier": "for all mesh sizes, orders, coordinates, conforming meshes, numbers of ranks, label vectors returned by METIS, hash orders, reorderings of parts which keep the order, programs, and initial contents of uninitialised arrays", "why_tests_cant": "tests run a few meshes, orders and rank counts with the labels METIS happens to return; whether any labelling can separate or interleave the nodes inside an element is decided by three algorithms in different files", "anchors": ["mesh/PartitionMesh.hpp:partitionCondensedMesh", "mesh/ConvertMeshToOrder.hpp:convertMeshToOrder", "mesh/LocalMeshView.hpp:LocalElementView", "comm/DistributeMesh.hpp:distributeMesh", "algsys/MatrixFreeSystem.hpp:MatrixFreeSystem"]}
{"id": "C123", "title": "Setting nodal values reaches exactly the nodes of the listed domains or boundaries", "statement": "Setting Dirichlet or nodal values by a kernel evaluates it, in a matrix-free system as in an assembled one, at exactly the nodes of the elements of the listed domains (of the sides on the listed boundaries), once each, on every rank; all ranks together cover those of the mesh. Setting a constant writes to the nodes of the listed domains or boundaries.", "quantifier": "Every mesh, every distribution of it, every rank, every classification of elements as interior or border, every list of domains or boundaries, every kernel dimension, every order of parallel visits", "why_tests_cant": "Tests set values by kernels on one mesh and a few ranks; whether an overload silently skips elements, or decides wrongly what the ids mean, depends on the mesh and on how it is distributed", "anchors": ["include/l3ster/algsys/ComputeValuesAtNodes.hpp: computeValuesAtNodes", "include/l3ster/mesh/LocalMeshView.hpp: getMaxDim, checkDomainDims, visitBoundaries", "include/l3ster/algsys/MatrixFreeSystem.hpp: setDirichletBCValues"]}
{"id": "C124", "title": "Values set through kernels are the averages over the elements of the mesh, in both kinds of system and on any distribution", "statement": "After `setValues`/`setDirichletBCValues` with a domain or boundary kernel, the value of every unknown is the average of what the kernel gives at its node in all elements (sides) of the listed domains (boundaries) of the mesh which have the node, and the value it had before where there is none. This holds for sequences of calls, in the assembled and in the matrix-free system, on any distribution of the mesh, whatever the order of elements and the moments MPI reads buffers; such calls do not throw. A kernel which depends only on the node sets exactly its own values. Hence values prescribed by such calls lead to the same solutions in both systems, on any numbers of ranks.", "quantifier": "all meshes satisfying the stated preconditions, all outcomes of distributeMesh on any number of ranks, all programs and sequences of calls, all kernels, all orders of elements, all moments of communication, all unknowns and right-hand sides", "why_tests_cant": "Tests set values on a few small meshes and on few ranks; averaging over ghosts, halves of the mesh, renumbering and the order of communication interact and cannot be enumerated", "anchors": ["include/l3ster/algsys/ComputeValuesAtNodes.hpp: computeValuesAtNodes, zeroOut, getNodeDofsAtInds", "include/l3ster/algsys/AssembledSystem.hpp: setValues, setDirichletBCValues", "include/l3ster/algsys/MatrixFreeSystem.hpp: setValues, setDirichletBCValues", "include/l3ster/comm/DistributeMesh.hpp: distributeMesh", "include/l3ster/comm/ImportExport.hpp: Export, Import"]}
{"id": "C125", "title": "Programs which solve again and again and feed solutions back into kernels do not depend on distribution nor on the kind of the systems", "statement": "Take a program of any number of steps, each of which prescribes values by kernels, assembles equations, solves, and copies components of the solution into fields with `updateSolution`; all kernels may read fields, several systems may be used, and prescribed values are kept from step to step (time stepping, non-linear iteration, coupled problems). On any distribution of the mesh, and with assembled or matrix-free systems, the program can run to its end: no call throws, the systems have solutions, updates succeed. Whatever fields it ends with on one distribution it can end with on any other, and if every system solved has one solution on one of them, all runs on all distributions end with the same value of every field at every node, on whichever ranks the node is.", "quantifier": "all meshes satisfying the stated preconditions, all outcomes of distributeMesh on any two numbers of ranks, all finite sequences of steps, all kernels and fields they read, all orders of elements and updates, both kinds of system at each step", "why_tests_cant": "Tests run a few time steps on small meshes; whether the state carried between steps (ghost values of fields, prescribed values, systems reused) is consistent over ranks after any number of steps is an invariant over executions no finite run settles", "anchors": ["include/l3ster/post/FieldAccess.hpp: FieldAccess, getGloballyIndexed, getLocallyIndexed", "include/l3ster/algsys/AssembledSystem.hpp: assembleProblem, setDirichletBCValues, solve, updateSolution", "include/l3ster/algsys/MatrixFreeSystem.hpp: assembleProblem, setDirichletBCValues, solve, updateSolution", "include/l3ster/algsys/AssembleGlobalSystem.hpp: assembleGlobalSystem", "include/l3ster/algsys/ComputeValuesAtNodes.hpp: computeValuesAtNodes", "include/l3ster/post/SolutionManager.hpp: SolutionManager"]}
{"id": "C126", "title": "What is solved does not depend on when fields change", "statement": "Whatever a program does with fields between, before and after the calls beginAssembly, assembleProblem, endAssembly and solve, systems with matrices and matrix-free systems have the same operator and right-hand side. (False: the matrix-free system keeps pointers to fields and reads them at endAssembly and at every application of the operator; true if from the first kernel reading fields to the last solve of a session they do not change.)", "quantifier": "all kernels (reading fields or not), contributions in any commutative monoid, all ways conditions are imposed, all histories of field changes (also destruction of the manager), prescribed values and calls of assembly", "why_tests_cant": "The programs which differ are those of particular orders of calls, with lifetimes of objects involved; tests call in the usual order, and reading freed memory usually gives the old values.", "anchors": ["include/l3ster/algsys/MatrixFreeSystem.hpp: assembleProblem, endAssembly, Operator::apply", "include/l3ster/algsys/AssembledSystem.hpp: assembleProblem, endAssembly", "include/l3ster/post/FieldAccess.hpp: FieldAccess", "include/l3ster/post/SolutionManager.hpp: getFieldAccess"]}
{"id": "C127", "title": "Extruded meshes are ready for distribution at any order, in both kinds of system", "statement": "Extruding a valid conforming mesh of the plane which is ready for distribution over any list of increasing heights gives a mesh which is ready for distribution, at order 1 and after conversion to any order; problems set up on it have the same answer on every distribution, in assembled systems and (if only boundaries of the plane mesh have edges) in matrix-free ones. The ids of back and front may be new, equal to each other, or ids of boundaries of the plane mesh.", "quantifier": "all meshes of the plane of any shape and number of elements, all increasing lists of at least two heights, all orders whose elements have fewer than 2^16 nodes, all distributions over any number of ranks", "why_tests_cant": "Conformity of the extruded mesh is a relation between all pairs of elements of meshes of any size; tests extrude one mesh.", "anchors": ["include/l3ster/mesh/MeshUtils.hpp: extrude", "include/l3ster/mesh/DistributeMesh.hpp: generateAndDistributeMesh", "include/l3ster/mesh/ConvertMeshToOrder.hpp: convertMeshToOrder"]}
{"id": "C128", "title": "Merged meshes have each node and each element once and give the same answer on any distribution", "statement": "Merging meshes of order 1 which meet in whole boundary faces only, one after the other, gives a mesh with the elements of all of them at the same places, without the faces which two of them have in common; each place has exactly one node, and the mesh is ready for distribution. The search matches exactly the nodes at the same place, in whatever order hash maps are iterated; a node within the tolerance of a node of the other mesh is matched.", "quantifier": "all meshes of any dimension, size and number which fit, all orders of iteration of the hash maps and of parallel loops, all distributions of the result", "why_tests_cant": "The merged mesh depends on the positions of all nodes, on a grid computed from them, and on the iteration order of hash maps; tests merge a few meshes.", "anchors": ["include/l3ster/mesh/MeshUtils.hpp: merge, makeBoundaryNodeCoordsMap, initSpaceHashTable, matchExistingNodes", "include/l3ster/util/SpatialHashTable.hpp: SpatialHashTable"]}
{"id": "C129", "title": "The cylinder meshes are made with exactly the documented boundaries and are ready for distribution", "statement": "For every correct geometry and all different ids the meshes of a cylinder and of a half cylinder in a channel, and the extruded one, are made; their boundaries are exactly the given sides, (parts of) axis, ends and cylinder, every edge lies on the boundary whose id it has, all areas are in the domain, no edge between blocks is left, each place has one node; programs give the same answer on any distribution.", "quantifier": "all geometries accepted by correct(), all ids, all orders of iteration, all heights, all distributions", "why_tests_cant": "Ten blocks are deformed by trigonometric maps and merged by comparing positions; whether any edge between blocks is left over depends on all parameters; tests make one geometry.", "anchors": ["include/l3ster/mesh/primitives/CylinderInChannel2D.hpp: makeCylinderInChannel2DMesh", "include/l3ster/mesh/primitives/HalfCylinderInChannel2D.hpp: makeHalfCylinderInChannel2DMesh", "include/l3ster/mesh/primitives/CylinderInChannel3D.hpp: makeCylinderInChannel3DMesh", "include/l3ster/mesh/MeshUtils.hpp: merge"]}
{"id": "C130", "title": "Fixed-size arrays give programs what lists give", "statement": "A program that makes, copies, moves, assigns, reads, writes, compares and destroys ArrayOwner objects gets from each operation what the corresponding operation on lists gives, exceptions included; checked access is defined for every living array.", "quantifier": "all programs of any length over any number of arrays, all contents, all sizes", "why_tests_cant": "The state left behind by moves and by constructors only shows in later operations; tests use arrays that were just made.", "anchors": ["include/l3ster/util/ArrayOwner.hpp: ArrayOwner, copy"]}
{"id": "C131", "title": "The cache of shared objects gives the one living object for a key", "statement": "get gives the object last put in for the key as long as anybody owns it and null afterwards; the cache contains exactly the keys put in; a key contained can be had; there is at most one living object for a key.", "quantifier": "all programs of any length, all keys and values, all ways of sharing and dropping ownership", "why_tests_cant": "Depends on the order in which owners anywhere in the program go away.", "anchors": ["include/l3ster/util/WeakCache.hpp: WeakCache::contains, WeakCache::get, WeakCache::emplace"]}
{"id": "C132", "title": "The matrix graph handed to Tpetra has exactly the entries reserved and needed", "statement": "On every rank the column map contains every column that any row needs, each once, owned ones first and numbered as Tpetra numbers the rows; each row gets exactly as many entries as its reserved size, ascending, without repetition and within the column map; read through the column map, the row of an owned dof consists of exactly the dofs with which it shares an element on any rank, and that of a shared dof of those with which it does on this rank.", "quantifier": "all distributions of dofs and elements, all interleavings of threads, all orders of arrival of messages and of iteration of hash maps", "why_tests_cant": "Sizes, local column indices and maps are computed separately from one another and from data received from neighbours; tests have a few ranks.", "anchors": ["include/l3ster/algsys/SparsityGraph.hpp: makeColumnOwnership, makeTpetraMapOwned, makeTpetraMapOwnedPlusShared, insertIntoTpetraGraph, makeRowSizes, makeSparsityGraph"]}
{"id": "C133", "title": "Stopping, saving and loading on any number of ranks changes nothing", "statement": "A mesh distributed in any way and saved with its results can be loaded on any number of ranks. The mesh read has the same elements in the same domains, the same boundaries, and is fit for distribution; every local node of the new parts, owned or ghost, gets in each field asked for the value its node had; and the program solved afterwards has the same unknowns and the same solutions at every node of the original mesh as on any distribution without interruption. On as many ranks without repartitioning every rank gets its part and results back. Results cannot be loaded before the mesh; without field numbers all fields are loaded in order, and loading is refused if their numbers differ.", "quantifier": "all meshes, programs, numbers of ranks before and after, partitions, orders of threads and writers, fields, comments and previous file contents; reordered ranks as long as ghosts keep their order", "why_tests_cant": "The numbers of nodes change twice (when distributed, when read and distributed again) and are undone by tables built in three files; tests load on the same few ranks.", "anchors": ["include/l3ster/post/NativeIO.hpp: save, loadUnifiedMesh, loadPartitionedMesh, Loader::loadMesh, Loader::loadResults", "include/l3ster/comm/DistributeMesh.hpp: distributeMeshAndNodeMap, getOldNodeIds", "include/l3ster/mesh/PartitionMesh.hpp: partitionMeshAndNodeMap"]}
{"id": "C134", "title": "Elements are found by their ids on the rank which has them", "statement": "Looking up an element by its id in a rank's part of a distributed mesh gives that element if the rank has it and nothing otherwise; so the id of each element of a domain is found on exactly one rank, with the element's type, order and nodes. This holds on every square and cube made by the library, of any order and distributed in any way; it holds on other meshes if elements of each type come in the order of ids and no id of a boundary's elements surrounds one of another domain. It fails otherwise, and after a mesh is saved and loaded.", "quantifier": "all meshes, orders, numbers of ranks, partitions, orders of threads, and reorderings of ranks", "why_tests_cant": "The lookup relies on an order which partitioning must not disturb, in vectors filled by several threads; tests look up ids on one rank.", "anchors": ["include/l3ster/mesh/MeshPartition.hpp: find, findImpl", "include/l3ster/mesh/PartitionMesh.hpp: makeDomainMaps, assignBoundaryElements", "include/l3ster/algsys/StaticCondensationManager.hpp: endAssemblyImpl, recoverSolutionImpl"]}
{"id": "C135", "title": "A program stopped, saved, and gone on with on other ranks ends with the same fields", "statement": "A program makes steps with any number of algebraic systems, assembled or matrix-free. It is stopped between two steps, the mesh and the fields are saved, and another run, on any number of ranks, loads both, makes the systems again and goes on. At the end every field has the same value at every node, on every rank which has it, as without the stop and on any other distribution. The same holds for any number of stops, each time going on with any number of ranks. Loading and going on never fail. This is so if, after the stop, each step prescribes all the values its system takes, or its system had never been told any: prescribed values are not saved.", "quantifier": "all meshes, distributions, numbers of ranks before and after, numbers and places of the stops, sensible steps with one solution each, orders of writes, elements and additions", "why_tests_cant": "Tests save and load one field on one distribution; here everything after the stop depends on values, numbers and systems of another distribution being the same as before, for any program.", "anchors": ["include/l3ster/post/NativeIO.hpp: save, loadMesh, Loader::loadResults", "include/l3ster/post/SolutionManager.hpp: SolutionManager", "include/l3ster/algsys/AssembledSystem.hpp: setDirichletBCValues, updateSolution", "include/l3ster/algsys/MatrixFreeSystem.hpp: setDirichletBCValues, updateSolution"]}
{"id": "C136", "title": "Cores and hardware threads of the machine are counted once each", "statement": "On every machine the library counts each core and each hardware thread once, so assembly runs on as many threads as there are cores, or as many as open guards allow if these are fewer, and the limit is as before afterwards. False where several NUMA nodes are near the same cores (each such core is counted once per node), and guards have no effect where hwloc does not know the cores; true where no hardware thread is near two nodes.", "quantifier": "all machines (cores, hardware threads, NUMA nodes) as hwloc tells of them, all nestings of guards", "why_tests_cant": "A test runs on one machine, and has nothing to compare the count with.", "anchors": ["include/l3ster/util/HwlocWrapper.hpp: Topology", "include/l3ster/util/ScopeGuards.hpp: MaxParallelismGuard", "include/l3ster/algsys/AssembleGlobalSystem.hpp: assembleGlobalSystem"]}
{"id": "C137", "title": "Elements turned inside out are refused", "statement": "Domain kernels are evaluated on an element, in assembled and matrix-free systems, only if it is not folded or turned inside out; otherwise an exception is thrown. True of elements mirrored as a whole, of every type. False of elements folded near a corner: the jacobian is looked at only at the quadrature points, none of which is near enough, whatever the order. Quadrilaterals with positive jacobian at the corners are never refused, and those taken have positive area; hexahedra taken have positive volume if the order of the rule is at least two, but not with one point. Integrals, boundary kernels and sum-factorised operators do not check.", "quantifier": "all element types, vertices, kernels and orders of the quadrature", "why_tests_cant": "Tests use well-shaped elements, or one bad element with one rule; which elements pass depends on the order of the rule and on the shape.", "anchors": ["include/l3ster/algsys/AssembleLocalSystem.hpp: assembleLocalSystem", "include/l3ster/algsys/EvaluateLocalOperator.hpp: evaluateLocalOperator, precomputeOperatorDiagonalAndRhs", "include/l3ster/post/Integral.hpp", "include/l3ster/mapping/JacobiMat.hpp: getNatJacobiMatGenerator"]}
{"id": "C138", "title": "Only whole meshes can be partitioned", "statement": "partitionMesh divides a whole mesh into any number of parts (one part: a copy; less than one: an exception), both overloads giving the same parts; a mesh which is itself a part of a divided mesh is refused with an exception, as is one whose nodes are not numbered from zero without gaps. True of whole meshes. False of parts: the first part that owns nodes is taken for a whole mesh if it owns all the nodes it has. Of an empty part the last owned node is looked at, which is undefined. Missing node numbers are not noticed.", "quantifier": "all meshes, partitioner answers, orders of parallel loops, numbers of parts (also negative) and problem definitions", "why_tests_cant": "Whether a part passes depends on which of the neighbours the partitioner gives the common nodes; the test in MeshTests asks that both parts of one mesh are refused, for the answer one partitioner gives.", "anchors": ["include/l3ster/mesh/PartitionMesh.hpp: assertUnpartitionedMesh, partitionMesh", "include/l3ster/mesh/MeshPartition.hpp: copy"]}
{"id": "C139", "title": "Results exported over time show the state at the time of each call", "statement": "One exporter is used through a simulation (exports under any names, moves of the mesh, explicit flushes, destruction) while the writes it starts are carried out by MPI at any later time and in any order. Then no write reads a text that has been replaced or destroyed, waiting calls end, and once nothing is outstanding every file exported holds exactly the last document exported under its name, with the coordinates and field values of the time of that call; all other files are untouched. An export that throws changes no file.", "quantifier": "all sequences of calls, all interleavings and orders of completion of the writes, all previous contents of the disk, all fields and names, every rank", "why_tests_cant": "The damage done by a missing wait depends on when MPI carries out a write; a test sees the one timing of its machine, usually the harmless one.", "anchors": ["include/l3ster/post/VtkExport.hpp: PvtuExporter, exportSolution, updateNodeCoords, flushWriteQueue, enqueueWrite, enqueueVtuFileWrite, enqueuePvtuFileWrite", "include/l3ster/comm/MpiComm.hpp: Request, writeAtAsync, openFile"]}
{"id": "C140", "title": "When making the mesh fails, no rank is left waiting", "statement": "A program distributes meshes and communicates through the library. If the generator of a mesh (or its partitioning) throws on the rank that calls it, the call ends on every rank, with an exception or without. More generally, whichever ranks throw between operations, all operations before the first exception complete, no message is taken for one of another round, and where all ranks throw before the same operation none is left waiting and nothing is left under way.", "quantifier": "all sequences of library calls, all positions of the failing call, all numbers of ranks, all interleavings and all buffering behaviour of MPI, all sets of throwing ranks", "why_tests_cant": "Tests do not run a failing generator on several ranks (they would hang), and where a hang happens depends on interleaving and buffering.", "anchors": ["include/l3ster/comm/DistributeMesh.hpp: distributeMesh, distributeMeshAndNodeMap, scatterParts, scatterNodes", "include/l3ster/mesh/ReadMesh.hpp: readMesh", "include/l3ster/mesh/PartitionMesh.hpp: partitionMesh"]}
{"id": "C141", "title": "Meshes read from Gmsh files are ready for distribution", "statement": "A Gmsh file in which node tags are unique and all nodes used, and each element of a physical group named as boundary is one side of exactly one element of the next dimension, is read as a mesh which can be distributed: every boundary element finds its parent and side, nodes are numbered without gaps, and the answer of a problem set up on the mesh does not depend on the number of ranks or the partition.", "quantifier": "all files of lines, quadrilaterals and hexahedra in any order and direction of listing, all tags, all coordinates, all partitions METIS may return", "why_tests_cant": "Node order, flipping of clockwise quadrilaterals, renumbering and the search for parents interact; a test covers the orders occurring in its sample files.", "anchors": ["include/l3ster/mesh/ReadMesh.hpp: readMesh, makeElementFromNodeData", "include/l3ster/comm/DistributeMesh.hpp: readAndDistributeMesh, distributeMesh", "include/l3ster/mesh/MeshPartition.hpp: MeshPartition, initBoundaryViews"]}
{"id": "C142", "title": "Parallel loops give what sequential loops give", "statement": "`util::tbb::parallelTransform` into an output which is the input itself or does not overlap it stores, for every element, the kernel's result for that element as it was before the call, and changes nothing else, no matter how the range is split among threads and how these get on; the same for `parallelFor` with a kernel replacing its element. The kernel is called exactly once per element. If it throws, each output element is either as before or final, and the call does not return normally. With any other overlap results may depend on the schedule.", "quantifier": "all ranges, kernels (also throwing ones), ways to split the range, interleavings of the threads, all moments of the execution", "why_tests_cant": "Which splits and interleavings occur is up to the scheduler and the machine; a test observes a few of them.", "anchors": ["include/l3ster/util/TbbUtils.hpp: parallelFor, parallelTransform, makeBlockedIterSpace"]}
{"id": "C143", "title": "The dual graph connects elements with common nodes", "statement": "For a whole mesh (element ids 0, 1, ..., nodes without gaps, numbers within METIS' integer type) `computeMeshDual` gives METIS valid arrays, in which the nodes of element `id` are at position `id`; `getElementAdjacent` of each element stays within the arrays, names elements of the mesh only, and among them all which have two nodes in common with it. The conversion to higher order works with this graph. Parts of meshes, too large meshes and meshes with missing ids are refused with an exception.", "quantifier": "all meshes of any number of elements, all domains, orders of visiting and ids, all graphs METIS may return within its promise", "why_tests_cant": "Elements are stored by domain and type but numbered across them, and arrays are indexed by id; whether they agree depends on the whole mesh.", "anchors": ["include/l3ster/mesh/MeshUtils.hpp: computeMeshDual, isUnpartitioned", "include/l3ster/util/MetisUtils.hpp: GraphWrapper::getElementAdjacent", "include/l3ster/mesh/ConvertMeshToOrder.hpp: convertMeshToOrder"]}
